import Verif.JsonLemmas
import Verif.InfoModel
/-
C112: replies put together from fresh and from cached reports are JSON, and
contain exactly the requested reports, none older than its time.
-/
namespace Verif.Info
open Verif.Json

/-! ### Specification -/

/-- A report that the writer can handle: it is written inside the outermost
object. -/
def good (t : Items Scalar) : Prop :=
  t.keyed false ∧ t.all clean cleanScalar ∧ t.nest ≤ 14 ∧ t.smaller (intMax + 1)

/-- All members of all reports of a request. -/
def total : List (Nat × Option (Items Scalar)) → Nat
  | [] => 0
  | (_, none) :: r => total r
  | (_, some t) :: r => t.count + total r

/-- A request whose parts the writer can handle; `output_start` writes at least
one member (jsoninfo always writes four). -/
def goodReq (q : Req) : Prop :=
  good q.header ∧ 1 ≤ q.header.count ∧ q.header.count + total q.table ≤ intMax ∧
    ∀ bit t, (bit, some t) ∈ q.table → good t

/-- The requested reports a plugin has, in the order of its table. -/
def wanted (q : Req) : List Nat :=
  q.table.filterMap fun e => if q.what e.1 ∧ e.2.isSome then some e.1 else none

/-- The tree `t` is the report `bit` as it is now, or as it was at an earlier
request `j` that is not as long ago as the time set for that report. -/
def current (conf : Int) (past : List Req) (q : Req) (bit : Nat) (t : Items Scalar) : Prop :=
  (bit, some t) ∈ q.table ∨
    ∃ j ∈ past, (bit, some t) ∈ j.table ∧
      ((q.now - j.now).natAbs : Int) < cacheTimeout conf bit

/-- Several lists of members one after the other. -/
def joined (ts : List (Items Scalar)) : Items Scalar := ts.foldr Items.append .nil

/-! ### Lemmas -/

private theorem emit_append (p : Bool) (d : Nat) (t u : Items Scalar) :
    emit p d false (t.append u) = emit p d false t ++ emit p d false u := by
  induction t with
  | nil => rfl
  | leaf k v r ih => simp only [Items.append, emit, ih, List.append_assoc]
  | node k a b r _ ihr => simp only [Items.append, emit, ihr, List.append_assoc]

private theorem emit_append_first (p : Bool) (d : Nat) (t u : Items Scalar) (ht : 1 ≤ t.count) :
    emit p d true (t.append u) = emit p d true t ++ emit p d false u := by
  cases t with
  | nil => simp [Items.count] at ht
  | leaf k v r => simp only [Items.append, emit, emit_append, List.append_assoc]
  | node k a b r => simp only [Items.append, emit, emit_append, List.append_assoc]

private theorem keyed_append {a : Bool} {t u : Items Scalar} (ht : t.keyed a) (hu : u.keyed a) :
    (t.append u).keyed a := by
  induction t with
  | nil => exact hu
  | leaf k v r ih => exact ⟨ht.1, ih ht.2⟩
  | node k a b r _ ihr => exact ⟨ht.1, ht.2.1, ihr ht.2.2⟩

private theorem all_append {t u : Items Scalar} (ht : t.all clean cleanScalar)
    (hu : u.all clean cleanScalar) : (t.append u).all clean cleanScalar := by
  induction t with
  | nil => exact hu
  | leaf k v r ih => exact ⟨ht.1, ht.2.1, ih ht.2.2⟩
  | node k a b r _ ihr => exact ⟨ht.1, ht.2.1, ihr ht.2.2⟩

private theorem joined_good {ts : List (Items Scalar)} (h : ∀ t ∈ ts, good t) :
    (joined ts).keyed false ∧ (joined ts).all clean cleanScalar := by
  induction ts with
  | nil => exact ⟨trivial, trivial⟩
  | cons t ts ih =>
    have h1 := h t (List.mem_cons_self ..)
    have h2 := ih (fun u hu => h u (List.mem_cons_of_mem _ hu))
    exact ⟨keyed_append h1.1 h2.1, all_append h1.2.1 h2.2⟩

/-- What the cache may hold after the requests `past`. -/
private def fits (p : Bool) (past : List Req) (c : Cache) : Prop :=
  ∀ bit, (c bit).ts = 0 ∨ ∃ j ∈ past, ∃ t, (bit, some t) ∈ j.table ∧ (c bit).ts = j.now ∧
    (c bit).buf = emit p 1 false t ∧ good t

private theorem fits_mono {p : Bool} {past : List Req} {c : Cache} (q : Req) (h : fits p past c) :
    fits p (past ++ [q]) c := by
  intro bit
  rcases h bit with h | ⟨j, hj, t, h1, h2, h3, h4⟩
  · exact Or.inl h
  · exact Or.inr ⟨j, List.mem_append_left _ hj, t, h1, h2, h3, h4⟩

/-- The trees chosen for the requested reports. -/
private inductive Chosen (ok : Nat → Items Scalar → Prop) : List Nat → List (Items Scalar) → Prop
  | nil : Chosen ok [] []
  | cons {b t bs ts} : ok b t → Chosen ok bs ts → Chosen ok (b :: bs) (t :: ts)

private theorem loop (p : Bool) (conf : Int) (past : List Req) (q : Req)
    (hgood : ∀ bit t, (bit, some t) ∈ q.table → good t)
    (tab : List (Nat × Option (Items Scalar))) (hsub : ∀ e ∈ tab, e ∈ q.table)
    (s : Sess) (c : Cache) (hp : s.pretty = p) (hd : s.depth = 1) (he : s.entry 1 ≠ 0)
    (hb : s.entry 1 + total tab ≤ intMax) (hc : fits p (past ++ [q]) c)
    (hrec : ∀ bit, (c bit).ts = 0 ∨ (∃ t, (bit, some t) ∈ q.table ∧ (c bit).buf = emit p 1 false t ∧ good t) ∨
      ∃ j ∈ past, ∃ t, (bit, some t) ∈ j.table ∧ (c bit).ts = j.now ∧
        (c bit).buf = emit p 1 false t ∧ good t) :
    ∃ s' c' o ts, tableLoop conf q.now q.what tab s c = some (s', c', o) ∧
      s'.pretty = p ∧ s'.depth = 1 ∧ o = emit p 1 false (joined ts) ∧
      (∀ t ∈ ts, good t) ∧
      Chosen (current conf past q)
        (tab.filterMap fun e => if q.what e.1 ∧ e.2.isSome then some e.1 else none) ts ∧
      fits p (past ++ [q]) c' := by
  induction tab generalizing s c with
  | nil =>
    refine ⟨s, c, [], [], rfl, hp, hd, rfl, (by intro t ht; cases ht), Chosen.nil, hc⟩
  | cons e r ih =>
    obtain ⟨bit, f⟩ := e
    have hsub' : ∀ e ∈ r, e ∈ q.table := fun e he => hsub e (List.mem_cons_of_mem _ he)
    cases f with
    | none =>
      simp only [total] at hb
      obtain ⟨s', c', o, ts, h1, h2, h3, h4, h5, h6, h7⟩ := ih hsub' s c hp hd he hb hc hrec
      refine ⟨s', c', o, ts, h1, h2, h3, h4, h5, ?_, h7⟩
      simpa using h6
    | some t =>
      simp only [total] at hb
      have hmem : (bit, some t) ∈ q.table := hsub _ (List.mem_cons_self ..)
      have hgt := hgood bit t hmem
      by_cases hw : q.what bit = true
      · have hfm : ((bit, some t) :: r).filterMap
            (fun e => if q.what e.1 ∧ e.2.isSome then some e.1 else none) =
            bit :: r.filterMap (fun e => if q.what e.1 ∧ e.2.isSome then some e.1 else none) := by
          simp [hw]
        rw [hfm]
        -- writing the report now
        obtain ⟨s1, g1, g2, g3, g4, g5⟩ := execs_calls t s
          (by rw [hd]; have := hgt.2.2.1; unfold maxDepth; omega) (by rw [hd]; omega) hgt.2.2.2
        rw [hd] at g1 g3 g4
        rw [hp, show decide (s.entry 1 = 0) = false from by simp [he]] at g1
        have he1 : s1.entry 1 ≠ 0 := by omega
        have hb1 : s1.entry 1 + total r ≤ intMax := by omega
        unfold tableLoop
        rw [if_pos hw]
        by_cases hto : cacheTimeout conf bit ≤ 0
        · rw [if_pos hto, g1]
          obtain ⟨s', c', o, ts, h1, h2, h3, h4, h5, h6, h7⟩ :=
            ih hsub' s1 c (by rw [g2, hp]) g3 he1 hb1 hc hrec
          refine ⟨s', c', emit p 1 false t ++ o, t :: ts, by simp only [h1, Option.map_some], h2, h3, ?_, ?_, ?_, h7⟩
          · rw [h4]; simp only [joined, List.foldr_cons]; rw [emit_append]
          · intro u hu
            rcases List.mem_cons.mp hu with hu | hu
            · rw [hu]; exact hgt
            · exact h5 u hu
          · exact Chosen.cons (Or.inl hmem) h6
        · rw [if_neg hto]
          by_cases hold : (c bit).ts = 0 ∨ cacheTimeout conf bit ≤ ((q.now - (c bit).ts).natAbs : Int)
          · rw [if_pos hold, g1]
            have hc1 : fits p (past ++ [q])
                (fun b => if b = bit then { ts := q.now, buf := emit p 1 false t } else c b) := by
              intro b
              by_cases hbb : b = bit
              · simp only [hbb, if_true]
                exact Or.inr ⟨q, List.mem_append_right _ (List.mem_singleton.mpr rfl), t, hmem, rfl, rfl, hgt⟩
              · simp only [if_neg hbb]; exact hc b
            have hrec1 : ∀ b, ((fun b => if b = bit then ({ ts := q.now, buf := emit p 1 false t } : Entry) else c b) b).ts = 0 ∨
                (∃ u, (b, some u) ∈ q.table ∧
                  ((fun b => if b = bit then ({ ts := q.now, buf := emit p 1 false t } : Entry) else c b) b).buf = emit p 1 false u ∧ good u) ∨
                ∃ j ∈ past, ∃ u, (b, some u) ∈ j.table ∧
                  ((fun b => if b = bit then ({ ts := q.now, buf := emit p 1 false t } : Entry) else c b) b).ts = j.now ∧
                  ((fun b => if b = bit then ({ ts := q.now, buf := emit p 1 false t } : Entry) else c b) b).buf = emit p 1 false u ∧ good u := by
              intro b
              by_cases hbb : b = bit
              · simp only [hbb, if_true]
                exact Or.inr (Or.inl ⟨t, hmem, rfl, hgt⟩)
              · simp only [if_neg hbb]; exact hrec b
            obtain ⟨s', c', o, ts, h1, h2, h3, h4, h5, h6, h7⟩ :=
              ih hsub' s1 _ (by rw [g2, hp]) g3 he1 hb1 hc1 hrec1
            refine ⟨s', c', emit p 1 false t ++ o, t :: ts, by simp only [h1, Option.map_some], h2, h3, ?_, ?_, ?_, h7⟩
            · rw [h4]; simp only [joined, List.foldr_cons]; rw [emit_append]
            · intro u hu
              rcases List.mem_cons.mp hu with hu | hu
              · rw [hu]; exact hgt
              · exact h5 u hu
            · exact Chosen.cons (Or.inl hmem) h6
          · rw [if_neg hold]
            obtain ⟨s', c', o, ts, h1, h2, h3, h4, h5, h6, h7⟩ :=
              ih hsub' s c hp hd he (by omega) hc hrec
            have hne : (c bit).ts ≠ 0 := fun h => hold (Or.inl h)
            have hyoung : ((q.now - (c bit).ts).natAbs : Int) < cacheTimeout conf bit := by
              have : ¬ cacheTimeout conf bit ≤ ((q.now - (c bit).ts).natAbs : Int) :=
                fun h => hold (Or.inr h)
              omega
            have hch : ∃ u, (c bit).buf = emit p 1 false u ∧ good u ∧ current conf past q bit u := by
              rcases hrec bit with h | ⟨u, hu1, hu2, hu3⟩ | ⟨j, hj, u, hu1, hu2, hu3, hu4⟩
              · exact absurd h hne
              · exact ⟨u, hu2, hu3, Or.inl hu1⟩
              · exact ⟨u, hu3, hu4, Or.inr ⟨j, hj, hu1, by rw [← hu2]; exact hyoung⟩⟩
            obtain ⟨u, hu1, hu2, hu3⟩ := hch
            refine ⟨s', c', (c bit).buf ++ o, u :: ts, by simp only [h1, Option.map_some], h2, h3, ?_, ?_, ?_, h7⟩
            · rw [h4, hu1]; simp only [joined, List.foldr_cons]; rw [emit_append]
            · intro v hv
              rcases List.mem_cons.mp hv with hv | hv
              · rw [hv]; exact hu2
              · exact h5 v hv
            · exact Chosen.cons hu3 h6
      · have hfm : ((bit, some t) :: r).filterMap
            (fun e => if q.what e.1 ∧ e.2.isSome then some e.1 else none) =
            r.filterMap (fun e => if q.what e.1 ∧ e.2.isSome then some e.1 else none) := by
          simp [hw]
        rw [hfm]
        unfold tableLoop
        rw [if_neg hw]
        exact ih hsub' s c hp hd he (by omega) hc hrec

private theorem reply_fits (p : Bool) (conf : Int) (past : List Req) (q : Req) (c : Cache)
    (hq : goodReq q) (hc : fits p past c) :
    ∃ out n c' ts, reply p conf q c = some (out, n, c') ∧
      parseObject out = some ((q.header.append (joined ts)).map denote) ∧
      n = (emit p 1 false (joined ts)).length ∧
      Chosen (current conf past q) (wanted q) ts ∧ fits p (past ++ [q]) c' := by
  obtain ⟨hh, hcnt, hsum, htab⟩ := hq
  obtain ⟨s1, hs1⟩ : ∃ s1, s1 = setEntry { reset p with depth := 1 } 1 0 := ⟨_, rfl⟩
  have ho : exec (reset p) (.output true) = .ok s1 ['{'] := by rw [hs1]; rfl
  have e1 : s1.entry 1 = 0 := by rw [hs1]; rfl
  have d1 : s1.depth = 1 := by rw [hs1]; rfl
  have p1 : s1.pretty = p := by rw [hs1]; rfl
  obtain ⟨s2, h1, h2, h3, h4, h5⟩ := execs_calls q.header s1
    (by rw [d1]; have := hh.2.2.1; unfold maxDepth; omega) (by rw [d1, e1]; omega) hh.2.2.2
  rw [d1, e1, p1] at h1
  rw [d1] at h3 h4
  rw [e1] at h4
  obtain ⟨s3, c', o, ts, g1, g2, g3, g4, g5, g6, g7⟩ := loop p conf past q htab q.table
    (fun _ h => h) s2 c (by rw [h2, p1]) h3 (by omega) (by omega) (fits_mono q hc)
    (by
      intro bit
      rcases hc bit with h | ⟨j, hj, t, a1, a2, a3, a4⟩
      · exact Or.inl h
      · exact Or.inr (Or.inr ⟨j, hj, t, a1, a2, a3, a4⟩))
  have hcl : exec s3 (.output false) = .ok { (setEntry s3 1 0) with depth := 0 }
      ((if p then ['\n'] else []) ++ ['}']) := by
    simp only [exec]
    rw [if_neg (by omega), g2]
    simp only [indent_eq, ind, ne_eq, not_true_eq_false, if_false, List.nil_append]
  have hgj := joined_good g5
  have hkeys : (q.header.append (joined ts)).keyed false := keyed_append hh.1 hgj.1
  have hall : (q.header.append (joined ts)).all clean cleanScalar := all_append hh.2.1 hgj.2
  refine ⟨['{'] ++ emit p 1 (decide (0 = 0)) q.header ++ o ++
    ((if p = true then ['\n'] else []) ++ ['}']) ++ ['\n'], o.length, c', ts, ?_, ?_,
    by rw [g4], g6, g7⟩
  · unfold reply
    rw [execs_cons_ok ho h1]
    simp only []
    rw [g1]
    simp only []
    rw [hcl]
  · rw [g4]
    have htext : ['{'] ++ emit p 1 (decide (0 = 0)) q.header ++ emit p 1 false (joined ts) ++
        ((if p = true then ['\n'] else []) ++ ['}']) ++ ['\n'] =
        '{' :: (emit p 1 true (q.header.append (joined ts)) ++
          ((if p = true then ['\n'] else []) ++ closer false :: ['\n'])) := by
      rw [emit_append_first p 1 _ _ hcnt]
      simp [closer]
    rw [htext]
    unfold parseObject
    rw [skipWs_cons (by decide)]
    simp only [if_true]
    have hlen := size_le_emit p (q.header.append (joined ts)) 1 true hall
    rw [pItems_emit p (q.header.append (joined ts)) _ 1 false true _ ['\n'] (by
        simp only [List.length_cons, List.length_append] at hlen ⊢; omega) hkeys hall (by
        cases p <;> intro x hx
        · cases hx
        · rw [List.mem_singleton.mp hx]; rfl)]
    rfl

private theorem serve_fits (p : Bool) (conf : Int) (qs past : List Req) (c : Cache)
    (hqs : ∀ q ∈ qs, goodReq q) (hc : fits p past c) :
    ∃ c', serve p conf qs c = some c' ∧ fits p (past ++ qs) c' := by
  induction qs generalizing past c with
  | nil => exact ⟨c, rfl, by rw [List.append_nil]; exact hc⟩
  | cons q qs ih =>
    obtain ⟨out, n, c1, ts, h1, _, _, _, h5⟩ :=
      reply_fits p conf past q c (hqs q (List.mem_cons_self ..)) hc
    obtain ⟨c2, g1, g2⟩ := ih (past ++ [q]) c1 (fun r hr => hqs r (List.mem_cons_of_mem _ hr)) h5
    refine ⟨c2, ?_, by rw [List.append_assoc] at g2; exact g2⟩
    simp only [serve, h1, g1]

/-! ### C112 -/

private theorem chosen_spec {ok : Nat → Items Scalar → Prop} {bs : List Nat} {ts : List (Items Scalar)}
    (h : Chosen ok bs ts) :
    ts.length = bs.length ∧ ∀ (i : Nat) b t, bs[i]? = some b → ts[i]? = some t → ok b t := by
  induction h with
  | nil => exact ⟨rfl, by intro i b t hb; simp at hb⟩
  | cons hok _ ih =>
    refine ⟨by simp [ih.1], ?_⟩
    intro i b t hb ht
    cases i with
    | zero =>
      simp only [List.getElem?_cons_zero, Option.some.injEq] at hb ht
      rw [← hb, ← ht]; exact hok
    | succ i =>
      simp only [List.getElem?_cons_succ] at hb ht
      exact ih.2 i b t hb ht

/-- After any sequence of requests, at whatever times and with whatever reports,
every reply is one JSON object: first the members of `output_start`, then one
report after the other for exactly the requested reports the plugin has, in the
order of the table.  Each report is the one of now or the one an earlier request
got, and then that was less than its caching time ago. -/
theorem C112_reply_partial (p : Bool) (conf : Int) (past : List Req) (q : Req)
    (hpast : ∀ j ∈ past, goodReq j) (hq : goodReq q) :
    ∃ c out n c' ts, serve p conf past noCache = some c ∧ reply p conf q c = some (out, n, c') ∧
      parseObject out = some ((q.header.append (joined ts)).map denote) ∧
      ts.length = (wanted q).length ∧
      ∀ (i : Nat) b t, (wanted q)[i]? = some b → ts[i]? = some t → current conf past q b t := by
  obtain ⟨c, h1, h2⟩ := serve_fits p conf past [] noCache hpast (by intro bit; exact Or.inl rfl)
  obtain ⟨out, n, c', ts, g1, g2, _, g4, _⟩ := reply_fits p conf past q c hq (by simpa using h2)
  exact ⟨c, out, n, c', ts, h1, g1, g2, (chosen_spec g4).1, (chosen_spec g4).2⟩

/-- The length handed to the caller (which answers "no content" when it is
zero) is zero exactly when no requested report wrote anything. -/
theorem C112_empty_partial (p : Bool) (conf : Int) (past : List Req) (q : Req)
    (hpast : ∀ j ∈ past, goodReq j) (hq : goodReq q) :
    ∃ c out n c' t, serve p conf past noCache = some c ∧ reply p conf q c = some (out, n, c') ∧
      parseObject out = some ((q.header.append t).map denote) ∧ (n = 0 ↔ t.count = 0) := by
  obtain ⟨c, h1, h2⟩ := serve_fits p conf past [] noCache hpast (by intro bit; exact Or.inl rfl)
  obtain ⟨out, n, c', ts, g1, g2, g3, g4, _⟩ := reply_fits p conf past q c hq (by simpa using h2)
  refine ⟨c, out, n, c', joined ts, h1, g1, g2, ?_⟩
  rw [g3]
  cases joined ts with
  | nil => simp [emit, Items.count]
  | leaf k v r => simp [emit, sep, Items.count]
  | node k a b r => simp [emit, sep, Items.count]

/-- Reports of at most one caching time are never served after the report has
changed for longer: with a caching time of at most zero every reply shows the
reports as they are now. -/
theorem C112_uncached_partial (p : Bool) (conf : Int) (hconf : conf ≤ 0) (past : List Req) (q : Req)
    (hpast : ∀ j ∈ past, goodReq j) (hq : goodReq q) :
    ∃ c out n c' ts, serve p conf past noCache = some c ∧ reply p conf q c = some (out, n, c') ∧
      parseObject out = some ((q.header.append (joined ts)).map denote) ∧
      ts.length = (wanted q).length ∧
      ∀ (i : Nat) b t, (wanted q)[i]? = some b → ts[i]? = some t → (b, some t) ∈ q.table := by
  obtain ⟨c, out, n, c', ts, h1, h2, h3, h4, h5⟩ := C112_reply_partial p conf past q hpast hq
  refine ⟨c, out, n, c', ts, h1, h2, h3, h4, ?_⟩
  intro i b t hb ht
  rcases h5 i b t hb ht with h | ⟨j, _, _, h⟩
  · exact h
  · exfalso
    have : cacheTimeout conf b ≤ 0 := by unfold cacheTimeout; rw [if_pos hconf]; exact hconf
    omega

/-! ### Examples -/

/-- A request at time `now` with two reports; `n` is what the first says now. -/
def req (now : Int) (n : Int) (what : List Nat) : Req :=
  { now := now
    header := .leaf (some "pid".toList) (.int 7) .nil
    table := [(0, some (.node (some "neighbors".toList) true (.leaf none (.int n) .nil) .nil)),
              (1, none),
              (2, some (.node (some "routes".toList) true .nil .nil))]
    what := fun b => what.contains b }

private theorem req_good (now n : Int) (what : List Nat) (hn : -5 ≤ n ∧ n ≤ 5) :
    goodReq (req now n what) := by
  have hk : ∀ u : Str, u ∈ ["pid".toList, "neighbors".toList, "routes".toList] → clean u := by
    unfold clean; decide
  refine ⟨⟨⟨rfl, trivial⟩, ⟨?_, ?_, trivial⟩, ?_, trivial⟩, ?_, ?_, ?_⟩
  · intro s hs; cases hs; exact hk _ (by decide)
  · exact ⟨by decide, by decide⟩
  · show 0 ≤ 14; decide
  · show 1 ≤ 1; decide
  · show 1 + (1 + (1 + 0)) ≤ intMax; decide
  · intro bit t ht
    simp only [req, List.mem_cons, Prod.mk.injEq, Option.some.injEq, reduceCtorEq, and_false,
      List.not_mem_nil, or_false, false_or] at ht
    rcases ht with ⟨_, rfl⟩ | ⟨_, rfl⟩
    · refine ⟨⟨rfl, ⟨rfl, trivial⟩, trivial⟩, ⟨?_, ⟨?_, ?_, trivial⟩, trivial⟩, ?_, ?_⟩
      · intro s hs; cases hs; exact hk _ (by decide)
      · intro s hs; cases hs
      · show _ ∧ _; constructor <;> omega
      · show 1 ≤ 14; decide
      · exact ⟨by show 1 < intMax + 1; decide, trivial, trivial⟩
    · refine ⟨⟨rfl, trivial, trivial⟩, ⟨?_, trivial, trivial⟩, ?_, ?_⟩
      · intro s hs; cases hs; exact hk _ (by decide)
      · show 1 ≤ 14; decide
      · exact ⟨by show 0 < intMax + 1; decide, trivial, trivial⟩

/-- The hypotheses hold, and the second reply repeats the report of the first,
while the third, a second later, has the new one. -/
example : goodReq (req 5000 1 [0]) ∧
    ((serve false 1000 [req 5000 1 [0]] noCache).bind fun c =>
      (reply false 1000 (req 5999 2 [2, 0]) c).map fun r => String.ofList r.1) =
      some "{\"pid\": 7,\"neighbors\": [1],\"routes\": []}\n" ∧
    ((serve false 1000 [req 5000 1 [0]] noCache).bind fun c =>
      (reply false 1000 (req 6000 2 [2, 0]) c).map fun r => String.ofList r.1) =
      some "{\"pid\": 7,\"neighbors\": [2],\"routes\": []}\n" := by
  refine ⟨req_good _ _ _ ⟨by decide, by decide⟩, ?_, ?_⟩ <;> decide +kernel

/-- The header is needed: without a member before the reports a cached report
can be without its comma. -/
example :
    ((serve false 1000 [{ req 5000 1 [2] with header := .nil }] noCache).bind fun c =>
      (reply false 1000 { req 5100 1 [0, 2] with header := .nil } c).map fun r =>
        (String.ofList r.1, (parseObject r.1).isSome)) =
      some ("{\"neighbors\": [1]\"routes\": []}\n", false) := by decide +kernel

end Verif.Info
