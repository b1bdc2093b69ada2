import Verif.TcSetLemmas
import Verif.TcPktProps
/-!
C38: TC messages that are older are ignored, newer ones replace the edges of their originator.
C21 (TC part): processing a TC message does not read beyond its size.
C62: a denied address in a TC message does not affect the other addresses.
C63: a TC message sent with LQ level 0 is understood.
-/
namespace Verif.TcSet
open Verif.TcPkt

/-! ### Specification -/

/-- How far the 16-bit number `y` is ahead of `x`. -/
def ahead (x y : Nat) : Nat := (y + 65536 - x) % 65536

/-- `x` is older than `y`: at most half of the number space behind. -/
def Older (x y : Nat) : Prop := 1 ≤ ahead x y ∧ ahead x y ≤ 32767

/-- The originator is not known, has no edges, or the message is ahead of the last accepted one by a
moderate distance. -/
def Next (e : Option Entry) (seq ansn : Nat) : Prop :=
  e = none ∨ ∃ e', e = some e' ∧ e'.seq < 65536 ∧ e'.ansn < 65536 ∧
    (e'.edges = [] ∨ 1 ≤ ahead e'.seq seq ∧ ahead e'.seq seq ≤ 8192 ∧ ahead e'.ansn ansn < 1024)

/-- The edge that a message announces. -/
def announced (ansn : Nat) (n : Item) : Edge := ⟨n.addr, ansn, n.lq, n.nlq⟩

/-- Messages of bytes. -/
def Bytes : Ev → Prop
  | .msg _ m => ∀ x ∈ m, x < 256
  | _ => True

/-- Neighbours that the receiver may accept. -/
def Accepts (env : Env) (ns : List Item) : Prop :=
  0 < env.lqLevel ∧ env.mainZero = false ∧
  (∀ n ∈ ns, GoodItem env.ipsize n ∧ env.valid n.addr = true) ∧
  (ns.map (fun n => n.addr)).Nodup

/-- A header that can be encoded, for a message with these neighbours. -/
def Encodable (env : Env) (h : Hdr) (ns : List Item) : Prop :=
  h.seq < 65536 ∧ h.ansn < 65536 ∧ h.orig.length = env.ipsize ∧ msgSize env.ipsize ns.length < 65536

/-! ### Windows -/

private theorem inHigh_back {w s q : Nat} (hw : w ≤ 65535) (hs : s < 65536) (hq : q < 65536) :
    inHigh ((s : Int) - w) s q = true ↔ ahead q s < w := by
  unfold inHigh ahead
  split
  · rename_i h
    rw [Bool.or_eq_true, decide_eq_true_eq, decide_eq_true_eq]
    omega
  · rename_i h
    rw [if_neg (by omega), Bool.and_eq_true, decide_eq_true_eq, decide_eq_true_eq]
    omega

private theorem inHigh_fwd {w s q : Nat} (hw : w ≤ 65535) (hs : s < 65536) (hq : q < 65536) :
    inHigh (s : Int) ((s : Int) + w) q = true ↔ 1 ≤ ahead s q ∧ ahead s q ≤ w := by
  unfold inHigh ahead
  rw [if_neg (by omega)]
  split
  · rw [Bool.or_eq_true, decide_eq_true_eq, decide_eq_true_eq]
    omega
  · rw [Bool.and_eq_true, decide_eq_true_eq, decide_eq_true_eq]
    omega

private theorem inLow_fwd {w s q : Nat} (hw : w ≤ 65535) (hs : s < 65536) (hq : q < 65536) :
    inLow (s : Int) ((s : Int) + w) q = true ↔ ahead s q < w := by
  unfold inLow ahead
  rw [if_neg (by omega)]
  split
  · rw [Bool.or_eq_true, decide_eq_true_eq, decide_eq_true_eq]
    omega
  · rw [Bool.and_eq_true, decide_eq_true_eq, decide_eq_true_eq]
    omega

private theorem inLow_back {w s q : Nat} (hw : w ≤ 65535) (hs : s < 65536) (hq : q < 65536) :
    inLow ((s : Int) - w) s q = true ↔ 1 ≤ ahead q s ∧ ahead q s ≤ w := by
  unfold inLow ahead
  split
  · rw [Bool.or_eq_true, decide_eq_true_eq, decide_eq_true_eq]
    omega
  · rw [if_neg (by omega), Bool.and_eq_true, decide_eq_true_eq, decide_eq_true_eq]
    omega

/-- The tests of the ranges are tests of circular distances, also where the numbers wrap. -/
theorem C38_windows {w s q : Nat} (hw : w ≤ 65535) (hs : s < 65536) (hq : q < 65536) :
    (inHigh ((s : Int) - w) s q = true ↔ ahead q s < w) ∧
    (inHigh (s : Int) ((s : Int) + w) q = true ↔ 1 ≤ ahead s q ∧ ahead s q ≤ w) ∧
    (inLow (s : Int) ((s : Int) + w) q = true ↔ ahead s q < w) ∧
    (inLow ((s : Int) - w) s q = true ↔ 1 ≤ ahead q s ∧ ahead q s ≤ w) :=
  ⟨inHigh_back hw hs hq, inHigh_fwd hw hs hq, inLow_fwd hw hs hq, inLow_back hw hs hq⟩

private theorem older_greater {x y : Nat} (hx : x < 65536) (hy : y < 65536) (h : Older x y) :
    Seqno.greater y x = true := by
  unfold Older ahead at h
  unfold Seqno.greater
  rw [Bool.or_eq_true, Bool.and_eq_true, Bool.and_eq_true, decide_eq_true_eq, decide_eq_true_eq,
    decide_eq_true_eq, decide_eq_true_eq]
  omega

/-! ### C38: old messages -/

private theorem judge_old {e : Entry} {seq ansn : Nat} (hea : e.ansn < 65536) (ha : ansn < 65536)
    (ho : Older ansn e.ansn) (hi : e.ignored < 32) (he : e.errSeq = none ∨ e.errSeq = some seq) :
    ∃ e', judgeEntry e seq ansn = some e' ∧ e'.edges = e.edges ∧ e'.seq = e.seq ∧
      e'.ansn = e.ansn := by
  have hlow : inLow (e.ansn : Int) ((e.ansn : Int) + (1024 : Nat)) ansn = false := by
    rw [← Bool.not_eq_true, inLow_fwd (by decide) hea ha]
    unfold Older ahead at ho
    unfold ahead
    omega
  unfold judgeEntry
  split
  · split
    · exact ⟨e, rfl, rfl, rfl, rfl⟩
    · exact ⟨_, rfl, rfl, rfl, rfl⟩
  · rw [if_pos (by
      rw [Bool.or_eq_true]; right
      show (!inLow (e.ansn : Int) ((e.ansn : Int) + (1024 : Nat)) ansn) = true
      rw [hlow]; rfl)]
    rcases he with h | h
    · rw [h]; exact ⟨_, rfl, rfl, rfl, rfl⟩
    · rw [h]
      show ∃ e', (if seq = seq then some e else none) = some e' ∧ _
      rw [if_pos rfl]
      exact ⟨_, rfl, rfl, rfl, rfl⟩

/-- C38, old messages: if the originator has edges, fewer than 32 messages were ignored since the last
accepted one, and no other implausible message is remembered, then a message with an older ANSN leaves
the edges of all originators as they are, and is not forwarded.

Full statement: without the hypotheses on the edges, `ignored` and `errSeq`.  It fails in each case:
`C38_no_edges`, `C38_thirty_three_old`, `C38_two_strays`. -/
theorem C38_old_ignored_partial {env : Env} {sym : Bool} {t : Tab} {m body : List Nat} {h : Hdr}
    {e : Entry} (hm : readHdr env.ipsize m = some (h, body)) (ht : t h.orig = some e)
    (hea : e.ansn < 65536) (ha : h.ansn < 65536) (ho : Older h.ansn e.ansn) (hne : e.edges ≠ [])
    (hi : e.ignored < 32) (he : e.errSeq = none ∨ e.errSeq = some h.seq) :
    ∃ t', inputTc env sym t m = .ok (t', false) ∧ (∀ a, edgesOf (t' a) = edgesOf (t a)) ∧
      (∀ a, a ≠ h.orig → t' a = t a) := by
  unfold inputTc
  split
  · exact ⟨t, rfl, fun _ => rfl, fun _ _ => rfl⟩
  · split
    · exact ⟨t, rfl, fun _ => rfl, fun _ _ => rfl⟩
    · rw [hm]
      simp only
      obtain ⟨e', h1, h2, _, _⟩ := judge_old hea ha ho hi he
      have hj : judge (t h.orig) h.seq h.ansn = some e' := by
        rw [ht]
        show (if e.edges = [] then none else _) = _
        rw [if_neg hne]; exact h1
      rw [hj]
      refine ⟨_, rfl, fun a => ?_, fun a hne => if_neg hne⟩
      unfold set
      split
      · rename_i hh; rw [hh, ht]; exact h2
      · rfl

/-- A message whose sequence number and ANSN are both among the most recent ones. -/
private theorem judge_recent {e : Entry} {seq ansn : Nat} (hes : e.seq < 65536) (hea : e.ansn < 65536)
    (hs : seq < 65536) (ha : ansn < 65536) (h1 : ahead seq e.seq < 1024) (h2 : ahead ansn e.ansn < 256)
    (hi : e.ignored < 32) :
    ∃ e', judgeEntry e seq ansn = some e' ∧ e'.edges = e.edges ∧ e'.seq = e.seq ∧
      e'.ansn = e.ansn ∧ e'.ignored ≤ e.ignored + 1 := by
  unfold judgeEntry
  rw [if_pos (by
    rw [Bool.and_eq_true]
    exact ⟨(inHigh_back (w := 1024) (by decide) hes hs).2 h1,
      (inHigh_back (w := 256) (by decide) hea ha).2 h2⟩)]
  split
  · exact ⟨e, rfl, rfl, rfl, rfl, by omega⟩
  · exact ⟨_, rfl, rfl, rfl, rfl, Nat.le_refl _⟩

/-- C38, a run of old messages: up to 32 messages that repeat recent sequence numbers and recent ANSNs
of an originator with edges, in any order and with any contents, do not change the edges of any
originator.

Full statement: for any number of messages.  It fails: `C38_thirty_three_old`. -/
theorem C38_old_run_partial {env : Env} {sym : Bool} {o : List Nat} (ms : List (List Nat)) :
    ∀ {t : Tab} {e : Entry}, t o = some e → e.seq < 65536 → e.ansn < 65536 → e.edges ≠ [] →
    e.ignored + ms.length ≤ 32 →
    (∀ m ∈ ms, ∃ h body, readHdr env.ipsize m = some (h, body) ∧ h.orig = o ∧ h.seq < 65536 ∧
      h.ansn < 65536 ∧ ahead h.seq e.seq < 1024 ∧ ahead h.ansn e.ansn < 256) →
    ∃ t', run env t (ms.map (fun m => Ev.msg sym m)) = some t' ∧
      ∀ a, edgesOf (t' a) = edgesOf (t a) := by
  induction ms with
  | nil => intro t e _ _ _ _ _ _; exact ⟨t, rfl, fun _ => rfl⟩
  | cons m ms ih =>
    intro t e ht hes hea hne hi hall
    rw [List.length_cons] at hi
    obtain ⟨h, body, hr, ho, hs, ha, h1, h2⟩ := hall m (List.mem_cons_self ..)
    have hstep : ∃ t1 e1, inputTc env sym t m = .ok (t1, false) ∧ t1 o = some e1 ∧
        e1.seq = e.seq ∧ e1.ansn = e.ansn ∧ e1.edges = e.edges ∧ e1.ignored ≤ e.ignored + 1 ∧
        ∀ a, edgesOf (t1 a) = edgesOf (t a) := by
      unfold inputTc
      split
      · exact ⟨t, e, rfl, ht, rfl, rfl, rfl, by omega, fun _ => rfl⟩
      · split
        · exact ⟨t, e, rfl, ht, rfl, rfl, rfl, by omega, fun _ => rfl⟩
        · rw [hr]
          simp only
          obtain ⟨e', j1, j2, j3, j4, j5⟩ := judge_recent hes hea hs ha h1 h2 (by omega)
          have hj : judge (t h.orig) h.seq h.ansn = some e' := by
            rw [ho, ht]
            show (if e.edges = [] then none else _) = _
            rw [if_neg hne]; exact j1
          rw [hj]
          refine ⟨_, e', rfl, ?_, j3, j4, j2, j5, fun a => ?_⟩
          · unfold set; rw [if_pos ho.symm]
          · unfold set
            split
            · rename_i hh; rw [hh, ho, ht]; exact j2
            · rfl
    obtain ⟨t1, e1, s1, s2, s3, s4, s5, s6, s7⟩ := hstep
    obtain ⟨t', r1, r2⟩ := ih s2 (by omega) (by omega) (by rw [s5]; exact hne) (by omega) (by
      intro m' hm'
      obtain ⟨h', b', q1, q2, q3, q4, q5, q6⟩ := hall m' (List.mem_cons_of_mem _ hm')
      exact ⟨h', b', q1, q2, q3, q4, by rw [s3]; exact q5, by rw [s4]; exact q6⟩)
    refine ⟨t', ?_, fun a => (r2 a).trans (s7 a)⟩
    rw [List.map_cons, run]
    show (match (match inputTc env sym t m with | .ok (t', _) => some t' | _ => none) with
      | none => none | some t' => run env t' _) = _
    rw [s1]
    exact r1

/-- A message never touches the entries of other originators. -/
theorem C38_others {env : Env} {sym fwd : Bool} {t t' : Tab} {m body : List Nat} {h : Hdr}
    (hm : readHdr env.ipsize m = some (h, body)) (hok : inputTc env sym t m = .ok (t', fwd)) :
    ∀ a, a ≠ h.orig → t' a = t a := by
  intro a hne
  unfold inputTc at hok
  split at hok
  · cases hok; rfl
  · split at hok
    · cases hok; rfl
    · rw [hm] at hok
      simp only at hok
      split at hok
      · cases hok; exact if_neg hne
      · split at hok
        · cases hok
        · split at hok
          · cases hok
          · unfold finish at hok
            split at hok
            · cases hok
            · cases hok; exact if_neg hne
            · split at hok
              · cases hok; exact if_neg hne
              · cases hok; exact if_neg hne

/-! ### The invariant -/

private theorem readHdr_bytes {ipsize : Nat} {m body : List Nat} {h : Hdr} (hm : ∀ x ∈ m, x < 256)
    (hr : readHdr ipsize m = some (h, body)) : (∀ x ∈ body, x < 256) ∧ h.seq < 65536 ∧
      h.ansn < 65536 := by
  have hg : ∀ i, m.getD i 0 < 256 := by
    intro i
    rw [List.getD_eq_getElem?_getD]
    cases hi : m[i]? with
    | none => decide
    | some x => exact hm x (List.mem_of_getElem? hi)
  unfold readHdr at hr
  split at hr
  · cases hr
  · cases hr
    have e6 := hg (6 + ipsize)
    have e7 := hg (7 + ipsize)
    have e8 := hg (8 + ipsize)
    have e9 := hg (9 + ipsize)
    exact ⟨fun x hx => hm x (List.mem_of_mem_drop hx), by simp only; omega, by simp only; omega⟩

/-- What holds of every entry at all times. -/
private def Good (env : Env) (t : Tab) : Prop :=
  ∀ a e, t a = some e → Sorted env e.edges ∧ e.seq < 65536 ∧ e.ansn < 65536

private theorem good_edges {env : Env} {t : Tab} (h : Good env t) (a : List Nat) :
    Sorted env (edgesOf (t a)) := by
  cases ht : t a with
  | none => exact ⟨List.Pairwise.nil, fun _ h => (by cases h)⟩
  | some e => exact (h a e ht).1

private theorem good_set {env : Env} {t : Tab} {a : List Nat} {e : Option Entry} (h : Good env t)
    (he : ∀ x, e = some x → Sorted env x.edges ∧ x.seq < 65536 ∧ x.ansn < 65536) :
    Good env (set t a e) := by
  intro b x hx
  unfold set at hx
  split at hx
  · exact he x hx
  · exact h b x hx

private theorem good_judge {env : Env} {e : Option Entry} {e' : Entry} {seq ansn : Nat}
    (h : ∀ x, e = some x → Sorted env x.edges ∧ x.seq < 65536 ∧ x.ansn < 65536)
    (hj : judge e seq ansn = some e') :
    Sorted env e'.edges ∧ e'.seq < 65536 ∧ e'.ansn < 65536 := by
  unfold judge at hj
  split at hj
  · cases hj
  · rename_i x
    have hx := h x rfl
    split at hj
    · cases hj
    · unfold judgeEntry at hj
      split at hj
      · split at hj
        · cases hj; exact hx
        · split at hj
          · cases hj; exact hx
          · cases hj
      · split at hj
        · split at hj
          · cases hj; exact hx
          · split at hj
            · cases hj; exact hx
            · cases hj
        · cases hj

private theorem good_step {env : Env} {t t' : Tab} {ev : Ev} (hb : Bytes ev) (h : Good env t)
    (hs : step env t ev = some t') : Good env t' := by
  cases ev with
  | gc a =>
    cases hs
    show Good env (expireGc t a)
    unfold expireGc
    split
    · exact h
    · rename_i e he
      split
      · refine good_set h (fun x hx => ?_)
        cases hx
        have := h a e he
        exact ⟨filter_sorted this.1, this.2⟩
      · exact h
  | expire a =>
    cases hs
    exact good_set h (fun x hx => by cases hx)
  | msg sym m =>
    have hm : ∀ x ∈ m, x < 256 := hb
    unfold step at hs
    simp only at hs
    cases hi : inputTc env sym t m with
    | overread => rw [hi] at hs; cases hs
    | badWrite => rw [hi] at hs; cases hs
    | nullDeref => rw [hi] at hs; cases hs
    | ok r =>
      obtain ⟨t1, fwd⟩ := r
      rw [hi] at hs
      cases hs
      unfold inputTc at hi
      split at hi
      · cases hi; exact h
      · split at hi
        · cases hi; exact h
        · split at hi
          · cases hi
          · rename_i hd body hr
            obtain ⟨b1, b2, b3⟩ := readHdr_bytes hm hr
            split at hi
            · rename_i e hj
              cases hi
              refine good_set h (fun x hx => ?_)
              cases hx
              exact good_judge (fun x hx => h _ x hx) hj
            · split at hi
              · cases hi
              · split at hi
                · cases hi
                · rename_i es b hw
                  have hes := walk_sorted _ _ _ _ _ _ b1 (good_edges h hd.orig) hw
                  unfold finish at hi
                  split at hi
                  · cases hi
                  · cases hi
                    refine good_set h (fun x hx => ?_)
                    cases hx
                    exact ⟨hes, b2, b3⟩
                  · split at hi
                    · cases hi
                      exact good_set h (fun x hx => by cases hx)
                    · cases hi
                      refine good_set h (fun x hx => ?_)
                      cases hx
                      exact ⟨revoke_sorted hes, b2, b3⟩

private theorem good_run {env : Env} : ∀ (evs : List Ev) {t t' : Tab}, (∀ ev ∈ evs, Bytes ev) →
    Good env t → run env t evs = some t' → Good env t' := by
  intro evs
  induction evs with
  | nil => intro t t' _ h hr; cases hr; exact h
  | cons ev evs ih =>
    intro t t' hb h hr
    rw [run] at hr
    cases hs : step env t ev with
    | none => rw [hs] at hr; cases hr
    | some t1 =>
      rw [hs] at hr
      exact ih (fun e he => hb e (List.mem_cons_of_mem _ he))
        (good_step (hb ev (List.mem_cons_self ..)) h hs) hr

private theorem good_start {env : Env} : Good env (fun _ => none) := fun _ _ h => by cases h

/-! ### C38: new messages -/

private theorem judge_next {env : Env} {t : Tab} {h : Hdr} (hs : h.seq < 65536) (ha : h.ansn < 65536)
    (hn : Next (t h.orig) h.seq h.ansn) (_ : Good env t) : judge (t h.orig) h.seq h.ansn = none := by
  unfold judge
  split
  · rfl
  · rename_i e he
    split
    · rfl
    · rename_i hne
      rcases hn with h0 | ⟨e', h1, h2, h3, h4⟩
      · rw [he] at h0; cases h0
      · rw [he] at h1
        cases h1
        rcases h4 with h4 | ⟨q1, q2, q3⟩
        · exact absurd h4 hne
        · unfold judgeEntry
          rw [if_neg, if_neg]
          · rw [Bool.or_eq_true, not_or]
            have i1 := (inHigh_fwd (w := 8192) (by decide) h2 hs).2 ⟨q1, q2⟩
            have i2 := (inLow_fwd (w := 1024) (by decide) h3 ha).2 q3
            constructor
            · show ¬ (!inHigh (e.seq : Int) ((e.seq : Int) + (8192 : Nat)) h.seq) = true
              rw [i1]; decide
            · show ¬ (!inLow (e.ansn : Int) ((e.ansn : Int) + (1024 : Nat)) h.ansn) = true
              rw [i2]; decide
          · rw [Bool.and_eq_true, not_and]
            intro i1
            have := (inHigh_back (w := 1024) (by decide) h2 hs).1 i1
            unfold ahead at this q1 q2
            omega

private theorem edgeFor_eq {L ansn : Nat} {n : Item} (hg : GoodItem L n) :
    edgeFor ansn n = announced ansn n := by
  unfold edgeFor announced
  rw [Nat.mod_eq_of_lt hg.2.2.1, Nat.mod_eq_of_lt hg.2.2.2]

/-- What an accepted message does before the borders are applied. -/
private theorem input_new {env : Env} {t : Tab} (hgood : Good env t) {h : Hdr} {ns : List Item}
    (hacc : Accepts env ns) (henc : Encodable env h ns)
    (hn : Next (t h.orig) h.seq h.ansn) :
    inputTc env true t (encode h ns) =
      finish env t h (ns.foldl (put env h.ansn) (edgesOf (t h.orig))) (ends none ns)
        (gcOf (t h.orig)) := by
  obtain ⟨a1, a2, a3, a4⟩ := hacc
  obtain ⟨b1, b2, b3, b4⟩ := henc
  unfold inputTc
  have ht : (encode h ns).getD 0 0 = 202 := rfl
  rw [if_neg (by rw [ht]; decide), if_neg (by decide)]
  rw [(C19_header (ipsize := env.ipsize) ⟨b1, b2⟩ b3 (fun n hn => (a3 n hn).1.1) b4).1]
  simp only
  rw [judge_next b1 b2 hn hgood]
  simp only
  rw [if_neg (by rw [a2]; rintro ⟨_, h⟩; cases h)]
  rw [walk_items a1 ns _ _ _ (fun n hn => ⟨(a3 n hn).1.1, Or.inl (a3 n hn).2⟩)]
  rw [show (ns.map itemBytes).flatten.length = ns.length * (env.ipsize + 4) from ?_]
  · rw [Nat.mul_add]; omega
  · clear hn a4 b4 ht
    induction ns with
    | nil => rw [List.length_nil, Nat.zero_mul]; rfl
    | cons n ns ih =>
      rw [List.map_cons, List.flatten_cons, List.length_append,
        ih (fun x hx => a3 x (List.mem_cons_of_mem _ hx)), List.length_cons, Nat.succ_mul]
      have : (itemBytes n).length = env.ipsize + 4 := by
        unfold itemBytes
        rw [List.length_append, (a3 n (List.mem_cons_self ..)).1.1]
        rfl
      omega

/-- The edges after an accepted message with borders. -/
private theorem input_borders {env : Env} {t : Tab} (hgood : Good env t) {h : Hdr} {ns : List Item}
    (hacc : Accepts env ns) (henc : Encodable env h ns) (hn : Next (t h.orig) h.seq h.ansn)
    {a b : Item} (hfst : ns.head? = some a) (hlst : ns.getLast? = some b) {lo hi : List Nat}
    (hbd : calcBorders h.lower h.upper a.addr b.addr = some (some (lo, hi))) :
    ∃ t' e', inputTc env true t (encode h ns) = .ok (t', true) ∧ t' h.orig = some e' ∧
      e'.seq = h.seq ∧ e'.ansn = h.ansn ∧ Good env t' ∧
      ∀ x, x ∈ e'.edges ↔ (∃ n ∈ ns, x = announced h.ansn n) ∨
        x ∈ edgesOf (t h.orig) ∧ (∀ n ∈ ns, x.dest ≠ n.addr) ∧
          ¬ (env.key lo ≤ env.key x.dest ∧ env.key x.dest < env.key hi ∧
            Seqno.greater h.ansn x.ansn = true) := by
  have hes := fold_put_sorted (ansn := h.ansn) ns _ (good_edges hgood h.orig)
    (fun n hn => ⟨(hacc.2.2.1 n hn).1.1, (hacc.2.2.1 n hn).1.2.1⟩)
  rw [input_new hgood hacc henc hn, ends_none hfst hlst]
  unfold finish borders
  simp only
  rw [hbd]
  simp only
  rw [if_neg (by intro h; cases h)]
  refine ⟨_, _, rfl, if_pos rfl, rfl, rfl, ?_, ?_⟩
  · refine good_set hgood (fun x hx => ?_)
    cases hx
    exact ⟨revoke_sorted hes, henc.1, henc.2.1⟩
  · intro x
    show x ∈ revoke env.key h.ansn lo hi false _ ↔ _
    rw [revoke_eq _ false hes.1 (fun h => by cases h), List.mem_filter, mem_fold_put ns _ x hacc.2.2.2]
    have hcond : ((!(decide (env.key lo ≤ env.key x.dest) && decide (env.key x.dest < env.key hi) &&
        Seqno.greater h.ansn x.ansn)) = true) ↔ ¬ (env.key lo ≤ env.key x.dest ∧
          env.key x.dest < env.key hi ∧ Seqno.greater h.ansn x.ansn = true) := by
      rw [Bool.not_eq_true', ← Bool.not_eq_true, Bool.and_eq_true, Bool.and_eq_true,
        decide_eq_true_eq, decide_eq_true_eq, and_assoc]
    rw [hcond]
    constructor
    · rintro ⟨⟨n, hn, rfl⟩ | ⟨h1, h2⟩, h3⟩
      · exact Or.inl ⟨n, hn, edgeFor_eq (hacc.2.2.1 n hn).1⟩
      · exact Or.inr ⟨h1, h2, h3⟩
    · rintro (⟨n, hn, rfl⟩ | ⟨h1, h2, h3⟩)
      · refine ⟨Or.inl ⟨n, hn, (edgeFor_eq (hacc.2.2.1 n hn).1).symm⟩, ?_⟩
        rintro ⟨_, _, hgr⟩
        have : Seqno.greater h.ansn h.ansn = true := hgr
        rw [greater_irrefl] at this
        cases this
      · exact ⟨Or.inr ⟨h1, h2⟩, h3⟩

/-- C38, new messages: in every reachable state, a message with borders that is next in line, and
newer than the edges of its originator between its borders, replaces those edges by exactly the
neighbours it announces.  Edges outside the borders stay, unless they are announced too.

Full statement: for every message with an ANSN newer than that of the entry.  It fails, as edges may be
newer than their entry after a restart of the originator: `C38_stale_edge_survives`. -/
theorem C38_replaces_partial {env : Env} {evs : List Ev} {t : Tab} (hby : ∀ ev ∈ evs, Bytes ev)
    (hr : run env (fun _ => none) evs = some t) {h : Hdr} {ns : List Item}
    (hacc : Accepts env ns) (henc : Encodable env h ns) (hn : Next (t h.orig) h.seq h.ansn)
    {a b : Item} (hfst : ns.head? = some a) (hlst : ns.getLast? = some b) {lo hi : List Nat}
    (hbd : calcBorders h.lower h.upper a.addr b.addr = some (some (lo, hi)))
    (hold : ∀ x ∈ edgesOf (t h.orig), env.key lo ≤ env.key x.dest → env.key x.dest < env.key hi →
      x.ansn < 65536 ∧ Older x.ansn h.ansn) :
    ∃ t' e', inputTc env true t (encode h ns) = .ok (t', true) ∧ t' h.orig = some e' ∧
      e'.seq = h.seq ∧ e'.ansn = h.ansn ∧
      ∀ x, x ∈ e'.edges ↔ (∃ n ∈ ns, x = announced h.ansn n) ∨
        x ∈ edgesOf (t h.orig) ∧ (∀ n ∈ ns, x.dest ≠ n.addr) ∧
          ¬ (env.key lo ≤ env.key x.dest ∧ env.key x.dest < env.key hi) := by
  obtain ⟨t', e', h1, h2, h3, h4, _, h5⟩ :=
    input_borders (good_run evs hby good_start hr) hacc henc hn hfst hlst hbd
  refine ⟨t', e', h1, h2, h3, h4, fun x => ?_⟩
  rw [h5]
  constructor
  · rintro (h | ⟨q1, q2, q3⟩)
    · exact Or.inl h
    · refine Or.inr ⟨q1, q2, ?_⟩
      rintro ⟨r1, r2⟩
      have := hold x q1 r1 r2
      exact q3 ⟨r1, r2, older_greater this.1 henc.2.1 this.2⟩
  · rintro (h | ⟨q1, q2, q3⟩)
    · exact Or.inl h
    · exact Or.inr ⟨q1, q2, fun h => q3 ⟨h.1, h.2.1⟩⟩

/-- C38, messages without borders: the edges that are not announced stay until the timer for the
garbage collection fires, and then exactly the announced ones are left. -/
theorem C38_collects {env : Env} {evs : List Ev} {t : Tab} (hby : ∀ ev ∈ evs, Bytes ev)
    (hr : run env (fun _ => none) evs = some t) {h : Hdr} {ns : List Item}
    (hacc : Accepts env ns) (henc : Encodable env h ns) (hn : Next (t h.orig) h.seq h.ansn)
    (hne : ns ≠ []) (hb1 : h.lower = 0) (hb2 : h.upper = 0)
    (hold : ∀ x ∈ edgesOf (t h.orig), x.ansn < 65536 ∧ Older x.ansn h.ansn) :
    ∃ t', inputTc env true t (encode h ns) = .ok (t', true) ∧
      (∀ x, x ∈ edgesOf (t' h.orig) ↔ (∃ n ∈ ns, x = announced h.ansn n) ∨
        x ∈ edgesOf (t h.orig) ∧ ∀ n ∈ ns, x.dest ≠ n.addr) ∧
      (∀ x, x ∈ edgesOf (expireGc t' h.orig h.orig) ↔ ∃ n ∈ ns, x = announced h.ansn n) := by
  have hgood := good_run evs hby good_start hr
  obtain ⟨a, ha⟩ : ∃ a, ns.head? = some a := by
    cases ns with
    | nil => exact absurd rfl hne
    | cons x xs => exact ⟨x, rfl⟩
  obtain ⟨b, hb⟩ : ∃ b, ns.getLast? = some b := by
    cases hl : ns.getLast? with
    | none => exact absurd (List.getLast?_eq_none_iff.1 hl) hne
    | some b => exact ⟨b, rfl⟩
  rw [input_new hgood hacc henc hn, ends_none ha hb]
  unfold finish borders calcBorders
  simp only
  rw [if_pos ⟨hb1, hb2⟩]
  have hmem : ∀ x, x ∈ ns.foldl (put env h.ansn) (edgesOf (t h.orig)) ↔
      (∃ n ∈ ns, x = announced h.ansn n) ∨
        x ∈ edgesOf (t h.orig) ∧ ∀ n ∈ ns, x.dest ≠ n.addr := by
    intro x
    rw [mem_fold_put ns _ x hacc.2.2.2]
    constructor
    · rintro (⟨n, hn, rfl⟩ | h)
      · exact Or.inl ⟨n, hn, edgeFor_eq (hacc.2.2.1 n hn).1⟩
      · exact Or.inr h
    · rintro (⟨n, hn, rfl⟩ | h)
      · exact Or.inl ⟨n, hn, (edgeFor_eq (hacc.2.2.1 n hn).1).symm⟩
      · exact Or.inr h
  refine ⟨_, rfl, fun x => ?_, fun x => ?_⟩
  · unfold set
    rw [if_pos rfl]
    exact hmem x
  · have hst : set t h.orig (some (stored h (ns.foldl (put env h.ansn) (edgesOf (t h.orig))) true))
        h.orig = some (stored h (ns.foldl (put env h.ansn) (edgesOf (t h.orig))) true) := if_pos rfl
    unfold expireGc
    rw [hst]
    show x ∈ edgesOf ((if (true : Bool) = true then set _ _ _ else _) h.orig) ↔ _
    rw [if_pos rfl]
    unfold set
    rw [if_pos rfl]
    show x ∈ List.filter _ _ ↔ _
    rw [List.mem_filter]
    show x ∈ ns.foldl (put env h.ansn) (edgesOf (t h.orig)) ∧ _ ↔ _
    rw [hmem]
    constructor
    · rintro ⟨h1 | ⟨h1, _⟩, h2⟩
      · exact h1
      · have := hold x h1
        have h2' : (!Seqno.greater h.ansn x.ansn) = true := h2
        rw [older_greater this.1 henc.2.1 this.2] at h2'
        cases h2'
    · rintro ⟨n, hn, rfl⟩
      refine ⟨Or.inl ⟨n, hn, rfl⟩, ?_⟩
      show (!Seqno.greater h.ansn h.ansn) = true
      rw [greater_irrefl]; rfl

/-! ### C38: all fragments of a TC -/

/-- The header of a fragment. -/
def fragHdr (h : Hdr) (s : Nat) (f : Frag) : Hdr :=
  { h with seq := s, lower := f.lower, upper := f.upper }

/-- The messages of the fragments, with the sequence numbers they are sent with. -/
def fragMsgs (h : Hdr) : List (Nat × Frag) → List (List Nat)
  | [] => []
  | (s, f) :: fs => encode (fragHdr h s f) f.items :: fragMsgs h fs

/-- The sequence numbers rise in moderate steps. -/
def Rising : Nat → List (Nat × Frag) → Prop
  | _, [] => True
  | s, (s', _) :: fs => s' < 65536 ∧ 1 ≤ ahead s s' ∧ ahead s s' ≤ 8192 ∧ Rising s' fs

private theorem key_ones {env : Env} {a : List Nat} (ha : IsAddr env a)
    (hne : a ≠ List.replicate env.ipsize 0xff) :
    env.key a < env.key (List.replicate env.ipsize 0xff) := by
  have hle : env.key a ≤ env.key (List.replicate env.ipsize 0xff) := by
    unfold Env.key TcPkt.key
    split
    · have := beVal_lt a ha.2
      have h1 := beVal_ones env.ipsize
      rw [← ha.1] at h1 ⊢; omega
    · have := beVal_lt a.reverse (fun x hx => ha.2 x (List.mem_reverse.1 hx))
      have h1 := beVal_ones env.ipsize
      rw [List.reverse_replicate, ← ha.1]
      rw [← ha.1] at h1
      rw [List.length_reverse] at this
      omega
  refine Nat.lt_of_le_of_ne hle (fun he => hne (key_inj ha ?_ he))
  exact ⟨List.length_replicate, fun x hx => by rw [List.eq_of_mem_replicate hx]; decide⟩

/-- The first fragment is next in line, and the others follow it. -/
private def Start (t : Tab) (h : Hdr) : List (Nat × Frag) → Prop
  | [] => True
  | (s, _) :: fs => s < 65536 ∧ Next (t h.orig) s h.ansn ∧ Rising s fs

private theorem run_msg {env : Env} {t t1 : Tab} {m : List Nat} {evs : List Ev} {fwd : Bool}
    (h : inputTc env true t m = .ok (t1, fwd)) :
    run env t (Ev.msg true m :: evs) = run env t1 evs := by
  rw [run]
  show (match (match inputTc env true t m with | .ok (t', _) => some t' | _ => none) with
      | none => none | some t' => run env t' _) = _
  rw [h]

private theorem fragments_aux {env : Env} {h : Hdr} (hor : h.orig.length = env.ipsize)
    (hansn : h.ansn < 65536) : ∀ (fs : List (Nat × Frag)) (lo : List Nat) (t : Tab),
    Chained env.ipsize lo (fs.map Prod.snd) → Good env t →
    (∀ f ∈ fs, Accepts env f.2.items ∧ msgSize env.ipsize f.2.items.length < 65536) →
    ((fs.map (fun f => f.2.items)).flatten.map (fun n => n.addr)).Nodup → Start t h fs →
    (∀ x ∈ edgesOf (t h.orig), Seqno.greater h.ansn x.ansn = true →
      x.dest ≠ List.replicate env.ipsize 0xff) →
    ∃ t', run env t ((fragMsgs h fs).map (fun m => Ev.msg true m)) = some t' ∧
      (∀ x, x ∈ edgesOf (t' h.orig) → (∃ f ∈ fs, ∃ n ∈ f.2.items, x = announced h.ansn n) ∨
        x ∈ edgesOf (t h.orig) ∧ (∀ f ∈ fs, ∀ n ∈ f.2.items, x.dest ≠ n.addr) ∧
          (env.key x.dest < env.key lo ∨ Seqno.greater h.ansn x.ansn = false)) ∧
      (∀ x, (∃ f ∈ fs, ∃ n ∈ f.2.items, x = announced h.ansn n) → x ∈ edgesOf (t' h.orig)) ∧
      (∀ x, x ∈ edgesOf (t h.orig) → (∀ f ∈ fs, ∀ n ∈ f.2.items, x.dest ≠ n.addr) →
        Seqno.greater h.ansn x.ansn = false → x ∈ edgesOf (t' h.orig)) := by
  intro fs
  induction fs with
  | nil => intro lo t hc; cases hc
  | cons p fs ih =>
    obtain ⟨s, f⟩ := p
    intro lo t hc hgood hacc hnd hst hones
    obtain ⟨hs, hnx, hrise⟩ := hst
    obtain ⟨hacc1, hsz⟩ := hacc (s, f) (List.mem_cons_self ..)
    have henc : Encodable env (fragHdr h s f) f.items := ⟨hs, hansn, hor, hsz⟩
    have hmain : ∀ {a b : Item} {hi : List Nat}, f.items.head? = some a → f.items.getLast? = some b →
        calcBorders f.lower f.upper a.addr b.addr = some (some (lo, hi)) →
        ∃ t' e', inputTc env true t (encode (fragHdr h s f) f.items) = .ok (t', true) ∧
          t' h.orig = some e' ∧ e'.seq = s ∧ e'.ansn = h.ansn ∧ Good env t' ∧
          ∀ x, x ∈ edgesOf (t' h.orig) ↔ (∃ n ∈ f.items, x = announced h.ansn n) ∨
            x ∈ edgesOf (t h.orig) ∧ (∀ n ∈ f.items, x.dest ≠ n.addr) ∧
              ¬ (env.key lo ≤ env.key x.dest ∧ env.key x.dest < env.key hi ∧
                Seqno.greater h.ansn x.ansn = true) := by
      intro a b hi hf hl hcb
      obtain ⟨t1, e1, h1, h2, h3, h4, h5, h6⟩ :=
        input_borders (h := fragHdr h s f) hgood hacc1 henc hnx hf hl hcb
      have h2' : t1 h.orig = some e1 := h2
      exact ⟨t1, e1, h1, h2', h3, h4, h5, fun x => by rw [h2']; exact h6 x⟩
    rw [List.map_cons] at hc
    generalize hfs : fs.map Prod.snd = gs at hc
    cases hc with
    | last hf hl hcb =>
      obtain ⟨t1, e1, h1, h2, _, _, _, h6⟩ := hmain hf hl hcb
      have hfs' : fs = [] := List.map_eq_nil_iff.1 hfs
      subst hfs'
      refine ⟨t1, ?_, fun x hx => ?_, fun x hx => ?_, fun x q1 q2 q3 => ?_⟩
      · rw [fragMsgs, List.map_cons, run_msg h1]
        rfl
      · rcases (h6 x).1 hx with ⟨n, hn, he⟩ | ⟨q1, q2, q3⟩
        · exact Or.inl ⟨(s, f), List.mem_cons_self .., n, hn, he⟩
        · refine Or.inr ⟨q1, fun g hg => ?_, ?_⟩
          · rw [List.mem_singleton] at hg
            subst hg
            exact q2
          · cases hgr : Seqno.greater h.ansn x.ansn with
            | false => exact Or.inr rfl
            | true =>
              left
              have hk := key_ones ((good_edges hgood h.orig).2 x q1) (hones x q1 hgr)
              exact Nat.lt_of_not_ge (fun hge => q3 ⟨hge, hk, hgr⟩)
      · obtain ⟨g, hg, n, hn, he⟩ := hx
        rw [List.mem_singleton] at hg
        subst hg
        exact (h6 x).2 (Or.inl ⟨n, hn, he⟩)
      · refine (h6 x).2 (Or.inr ⟨q1, q2 (s, f) (List.mem_cons_self ..), ?_⟩)
        rintro ⟨_, _, r3⟩
        rw [r3] at q3; cases q3
    | @more _ mid _ _ a b hf hl hcb hrest =>
      obtain ⟨t1, e1, h1, h2, h3, h4, h5, h6⟩ := hmain hf hl hcb
      rw [List.map_cons, List.flatten_cons, List.map_append, List.nodup_append] at hnd
      have hself : ∀ n : Item, Seqno.greater h.ansn (announced h.ansn n).ansn = false :=
        fun _ => greater_irrefl _
      rw [← hfs] at hrest
      obtain ⟨t2, r1, r2, r3, r4⟩ := ih mid t1 hrest h5
        (fun g hg => hacc g (List.mem_cons_of_mem _ hg)) hnd.2.1 (by
          cases fs with
          | nil => trivial
          | cons p fs =>
            obtain ⟨s2, f2⟩ := p
            obtain ⟨k1, k2, k3, k4⟩ := hrise
            refine ⟨k1, Or.inr ⟨e1, h2, by rw [h3]; exact hs, by rw [h4]; exact hansn,
              Or.inr ⟨by rw [h3]; exact k2, by rw [h3]; exact k3, ?_⟩⟩, k4⟩
            rw [h4]
            show ahead h.ansn h.ansn < 1024
            unfold ahead
            omega) (by
          intro x hx hgr
          rcases (h6 x).1 hx with ⟨n, _, rfl⟩ | ⟨q1, _, _⟩
          · rw [hself] at hgr; cases hgr
          · exact hones x q1 hgr)
      refine ⟨t2, ?_, fun x hx => ?_, fun x hx => ?_, fun x q1 q2 q3 => ?_⟩
      · rw [fragMsgs, List.map_cons, run_msg h1]
        exact r1
      · rcases r2 x hx with ⟨g, hg, n, hn, he⟩ | ⟨hx1, q4, q5⟩
        · exact Or.inl ⟨g, List.mem_cons_of_mem _ hg, n, hn, he⟩
        · rcases (h6 x).1 hx1 with ⟨n, hn, he⟩ | ⟨q1, q2, q3⟩
          · exact Or.inl ⟨(s, f), List.mem_cons_self .., n, hn, he⟩
          · refine Or.inr ⟨q1, fun g hg => ?_, ?_⟩
            · rcases List.mem_cons.1 hg with rfl | hg
              · exact q2
              · exact q4 g hg
            · rcases q5 with q5 | q5
              · cases hgr : Seqno.greater h.ansn x.ansn with
                | false => exact Or.inr rfl
                | true => exact Or.inl (Nat.lt_of_not_ge (fun hge => q3 ⟨hge, q5, hgr⟩))
              · exact Or.inr q5
      · obtain ⟨g, hg, n, hn, he⟩ := hx
        rcases List.mem_cons.1 hg with rfl | hg
        · refine r4 x ((h6 x).2 (Or.inl ⟨n, hn, he⟩)) (fun g' hg' n' hn' hee => ?_) (he ▸ hself n)
          have e1 : n.addr = n'.addr := by rw [he] at hee; exact hee
          exact hnd.2.2 n.addr (List.mem_map.2 ⟨n, hn, rfl⟩) n'.addr (List.mem_map.2 ⟨n',
            List.mem_flatten.2 ⟨g'.2.items, List.mem_map.2 ⟨g', hg', rfl⟩, hn'⟩, rfl⟩) e1
        · exact r3 x ⟨g, hg, n, hn, he⟩
      · refine r4 x ((h6 x).2 (Or.inr ⟨q1, q2 (s, f) (List.mem_cons_self ..), ?_⟩))
          (fun g hg => q2 g (List.mem_cons_of_mem _ hg)) q3
        rintro ⟨_, _, u3⟩
        rw [u3] at q3; cases q3

/-- C38, a TC in fragments: a TC is generated by `serialize` for distinct neighbours, with any buffer
sizes; its fragments reach a receiver in any reachable state in the order in which they were sent, and
the first is next in line.  If all edges that the receiver has for the originator are older, then
afterwards it has exactly the edges that were advertised, with their link qualities: all that is not
advertised any more is gone, on hosts of either byte order. -/
theorem C38_fragments {env : Env} {evs : List Ev} {t : Tab} (hby : ∀ ev ∈ evs, Bytes ev)
    (hr : run env (fun _ => none) evs = some t) {h : Hdr} (ho : h.orig.length = env.ipsize)
    (ha : h.ansn < 65536) {ns : List Item} (hne : ns ≠ []) (hacc : Accepts env ns)
    {left pending full : Nat} (hle : left ≤ full) (hfull : full < 65536)
    (hp : pending = 0 → left = full)
    (hroom : msgSize env.ipsize 1 ≤ full) {fs : List (Nat × Frag)}
    (hser : serialize env.ipsize left pending full ns = some (fs.map Prod.snd))
    {s : Nat} (hfs : Rising s fs)
    (hn : Next (t h.orig) ((fs.map Prod.fst).headD 0) h.ansn)
    (hold : ∀ x ∈ edgesOf (t h.orig), x.ansn < 65536 ∧ Older x.ansn h.ansn)
    (hones : ∀ x ∈ edgesOf (t h.orig), x.dest ≠ List.replicate env.ipsize 0xff) :
    ∃ t', run env t ((fragMsgs h fs).map (fun m => Ev.msg true m)) = some t' ∧
      ∀ x, x ∈ edgesOf (t' h.orig) ↔ ∃ n ∈ ns, x = announced h.ansn n := by
  have hgood := good_run evs hby good_start hr
  have hL : env.ipsize ≤ 16 := by unfold Env.ipsize; split <;> decide
  obtain ⟨f0, fs0, e1, e2, e3, _, _⟩ := C19_fragments_partial ns hroom hp hle
  rw [hser] at e1
  have e1' : fs.map Prod.snd = f0 :: fs0 := Option.some.inj e1
  rw [← e1', List.map_map] at e2
  have e2' : (fs.map (fun f => f.2.items)).flatten = ns := e2
  have hd : ns.Pairwise (fun x y => x.addr ≠ y.addr) := List.pairwise_map.1 hacc.2.2.2
  have hch := C61_consecutive hL hne (fun n hn => (hacc.2.2.1 n hn).1) hd hser
  have hmem : ∀ n, n ∈ ns ↔ ∃ f ∈ fs, n ∈ f.2.items := by
    intro n
    rw [← e2', List.mem_flatten]
    constructor
    · rintro ⟨l, hl, hn⟩
      obtain ⟨f, hf, rfl⟩ := List.mem_map.1 hl
      exact ⟨f, hf, hn⟩
    · rintro ⟨f, hf, hn⟩
      exact ⟨f.2.items, List.mem_map.2 ⟨f, hf, rfl⟩, hn⟩
  obtain ⟨t', r1, r2, r3, _⟩ := fragments_aux ho ha fs (List.replicate env.ipsize 0) t hch hgood (by
      intro f hf
      refine ⟨⟨hacc.1, hacc.2.1, fun n hn => hacc.2.2.1 n ((hmem n).2 ⟨f, hf, hn⟩), ?_⟩, ?_⟩
      · have hnd := hacc.2.2.2
        rw [← e2'] at hnd
        refine hnd.sublist (List.Sublist.map _ ?_)
        exact List.sublist_flatten_of_mem (List.mem_map.2 ⟨f, hf, rfl⟩)
      · have := e3 f.2 (by rw [← e1']; exact List.mem_map.2 ⟨f, hf, rfl⟩)
        omega) (by rw [e2']; exact hacc.2.2.2) (by
      cases fs with
      | nil => cases e1'
      | cons p fs =>
        obtain ⟨s1, f1⟩ := p
        exact ⟨hfs.1, hn, hfs.2.2.2⟩) (fun x hx _ => hones x hx)
  refine ⟨t', r1, fun x => ⟨fun hx => ?_, ?_⟩⟩
  · rcases r2 x hx with ⟨f, hf, n, hn, he⟩ | ⟨q1, _, q3⟩
    · exact ⟨n, (hmem n).2 ⟨f, hf, hn⟩, he⟩
    · exfalso
      rcases q3 with q3 | q3
      · have hz : env.key (List.replicate env.ipsize 0) = 0 := by
          unfold Env.key TcPkt.key
          split
          · exact beVal_zeros _
          · rw [List.reverse_replicate]; exact beVal_zeros _
        rw [hz] at q3
        omega
      · have := hold x q1
        rw [older_greater this.1 ha this.2] at q3
        cases q3
  · rintro ⟨n, hn, he⟩
    obtain ⟨f, hf, hnf⟩ := (hmem n).1 hn
    exact r3 x ⟨f, hf, n, hnf, he⟩

/-- An accepted message without neighbours removes the originator if both border flags are 255.
Otherwise it leaves the edges and starts the timer that collects the old ones. -/
theorem C38_empty {env : Env} {evs : List Ev} {t : Tab} (hby : ∀ ev ∈ evs, Bytes ev)
    (hr : run env (fun _ => none) evs = some t) (hlq : 0 < env.lqLevel) (hz : env.mainZero = false)
    {h : Hdr} (henc : Encodable env h []) (hn : Next (t h.orig) h.seq h.ansn) :
    ∃ t', inputTc env true t (encode h []) = .ok (t', true) ∧
      (h.lower = 255 → h.upper = 255 → t' h.orig = none) ∧
      (h.lower ≠ 255 ∨ h.upper ≠ 255 → ∃ e, t' h.orig = some e ∧ e.edges = edgesOf (t h.orig) ∧
        e.ansn = h.ansn ∧ e.seq = h.seq ∧ e.gc = true) := by
  have hgood := good_run evs hby good_start hr
  rw [input_new (ns := []) hgood ⟨hlq, hz, (fun _ h => (by cases h)), List.nodup_nil⟩ henc hn]
  have hb : borders env h (ends none []) = if h.lower = 0xff ∧ h.upper = 0xff then
      some (some (List.replicate env.ipsize 0, List.replicate env.ipsize 0xff)) else some none := rfl
  unfold finish
  rw [hb]
  by_cases hf : h.lower = 0xff ∧ h.upper = 0xff
  · rw [if_pos hf]
    simp only
    rw [if_pos (show ends none [] = none from rfl)]
    refine ⟨_, rfl, fun _ _ => if_pos rfl, fun h => ?_⟩
    rcases h with h | h
    · exact absurd hf.1 h
    · exact absurd hf.2 h
  · rw [if_neg hf]
    exact ⟨_, rfl, fun h1 h2 => absurd ⟨h1, h2⟩ hf, fun _ => ⟨_, if_pos rfl, rfl, rfl, rfl, rfl⟩⟩

/-- While the node has no main address (all zero), the first message of an originator dereferences
`NULL`; the messages of known originators do not. -/
theorem C38_main_zero {env : Env} (hz : env.mainZero = true) {t : Tab} {m : List Nat} :
    inputTc env true t m = .nullDeref ↔ (m.getD 0 0 = 202 ∨ m.getD 0 0 = 2) ∧
      ∃ h body, readHdr env.ipsize m = some (h, body) ∧ t h.orig = none := by
  unfold inputTc
  by_cases hty : m.getD 0 0 ≠ 202 ∧ m.getD 0 0 ≠ 2
  · rw [if_pos hty]
    refine iff_of_false (fun h => by cases h) ?_
    rintro ⟨h | h, _⟩
    · exact hty.1 h
    · exact hty.2 h
  · rw [if_neg hty, if_neg (by decide)]
    have hty' : m.getD 0 0 = 202 ∨ m.getD 0 0 = 2 := by
      by_cases h : m.getD 0 0 = 202
      · exact Or.inl h
      · exact Or.inr (Classical.byContradiction fun h' => hty ⟨h, h'⟩)
    cases hr : readHdr env.ipsize m with
    | none => exact iff_of_false (fun h => by cases h) (by rintro ⟨_, _, _, h, _⟩; cases h)
    | some p =>
      obtain ⟨h, body⟩ := p
      simp only
      cases ht : t h.orig with
      | none =>
        refine iff_of_true ?_ ⟨hty', h, body, rfl, ht⟩
        show (if (none : Option Entry) = none ∧ env.mainZero = true then _ else _) = _
        rw [if_pos ⟨rfl, hz⟩]
      | some e =>
        refine iff_of_false ?_ (by rintro ⟨_, _, _, h1, h2⟩; cases h1; rw [ht] at h2; cases h2)
        cases judge (some e) h.seq h.ansn with
        | some e => intro h; cases h
        | none =>
          simp only
          rw [if_neg (by rintro ⟨h, _⟩; cases h)]
          cases walk env h.ansn body.length (edgesOf (some e)) none body with
          | none => intro h; cases h
          | some r =>
            simp only
            unfold finish
            split
            · intro h; cases h
            · intro h; cases h
            · split
              · intro h; cases h
              · intro h; cases h

/-! ### C38: where it fails -/

/-- A receiver with IPv4 on a little-endian host, LQ level 2, that denies 127.0.0.1 and 0.0.0.0. -/
def host4 : Env :=
  { v6 := false, hostBE := false, lqLevel := 2
    valid := fun a => a != [127, 0, 0, 1] && a != [0, 0, 0, 0], mainZero := false }

/-- The originator in the examples. -/
def origA : List Nat := [10, 0, 0, 100]

/-- A message of it with both borders at the ends of the address space. -/
def tcMsg (seq ansn : Nat) (as : List (List Nat)) : Ev :=
  .msg true (encode ⟨134, origA, 255, 0, seq, ansn, 0xff, 0xff⟩ (as.map (fun a => ⟨a, 255, 255⟩)))

/-- Destination and ANSN of the edges it has after some events. -/
def edgesAfter (env : Env) (evs : List Ev) : Option (List (List Nat × Nat)) :=
  (run env (fun _ => none) evs).map (fun t => (edgesOf (t origA)).map (fun e => (e.dest, e.ansn)))

/-- An originator without edges is not protected: the second message has an older ANSN, and is
accepted. -/
theorem C38_no_edges : edgesAfter host4
    [.msg true (encode ⟨134, origA, 255, 0, 2000, 100, 0, 0⟩ []), tcMsg 1990 99 [[10, 0, 0, 1]]] =
      some [([10, 0, 0, 1], 99)] := by decide

/-- After 32 ignored messages the next one is accepted, no matter how old it is. -/
theorem C38_thirty_three_old :
    edgesAfter host4 (tcMsg 2000 100 [[10, 0, 0, 1]] ::
      (List.range 32).map (fun i => tcMsg (1990 - i) 99 [[10, 0, 0, 2]])) =
        some [([10, 0, 0, 1], 100)] ∧
    edgesAfter host4 (tcMsg 2000 100 [[10, 0, 0, 1]] ::
      (List.range 33).map (fun i => tcMsg (1990 - i) 99 [[10, 0, 0, 2]])) =
        some [([10, 0, 0, 1], 100), ([10, 0, 0, 2], 99)] := by decide

/-- Two messages with an older ANSN and different sequence numbers: the second is accepted. -/
theorem C38_two_strays :
    edgesAfter host4 [tcMsg 2000 100 [[10, 0, 0, 1]], tcMsg 2001 99 [[10, 0, 0, 2]]] =
      some [([10, 0, 0, 1], 100)] ∧
    edgesAfter host4 [tcMsg 2000 100 [[10, 0, 0, 1]], tcMsg 2001 99 [[10, 0, 0, 2]],
        tcMsg 2002 99 [[10, 0, 0, 2]]] =
      some [([10, 0, 0, 1], 100), ([10, 0, 0, 2], 99)] := by decide

/-- The originator restarts and counts its ANSN from 1 again.  The edge from before the restart has a
greater ANSN, and no later message removes it. -/
theorem C38_stale_edge_survives :
    edgesAfter host4 [tcMsg 20000 100 [[10, 0, 0, 1]], tcMsg 1 1 [[10, 0, 0, 2]],
        tcMsg 2 1 [[10, 0, 0, 2]]] = some [([10, 0, 0, 1], 100), ([10, 0, 0, 2], 1)] ∧
    edgesAfter host4 [tcMsg 20000 100 [[10, 0, 0, 1]], tcMsg 1 1 [[10, 0, 0, 2]],
        tcMsg 2 1 [[10, 0, 0, 2]], tcMsg 3 2 [[10, 0, 0, 2]]] =
      some [([10, 0, 0, 1], 100), ([10, 0, 0, 2], 2)] := by decide

/-! ### C21: reads beyond the message -/

private theorem walk_none {env : Env} {ansn : Nat} (hv : ∀ a, env.valid a = true)
    (hlq : 0 < env.lqLevel) : ∀ (fuel : Nat) (es : List Edge) (b : Option (List Nat × List Nat))
    (m : List Nat), m.length ≤ fuel → m.length % 4 = 0 →
    (walk env ansn fuel es b m = none ↔ m.length % (env.ipsize + 4) ≠ 0) := by
  have hip : env.ipsize = 4 ∨ env.ipsize = 16 := by unfold Env.ipsize; split <;> omega
  intro fuel
  induction fuel with
  | zero =>
    intro es b m h1 h2
    have : m = [] := List.length_eq_zero_iff.1 (by omega)
    subst this
    rw [walk]
    simp
  | succ fuel ih =>
    intro es b m h1 h2
    cases m with
    | nil => rw [walk]; simp
    | cons x m =>
      rw [walk]
      obtain ⟨mm, hmm⟩ : ∃ mm, x :: m = mm := ⟨_, rfl⟩
      have hpos : 0 < mm.length := by rw [← hmm]; exact Nat.succ_pos _
      rw [hmm] at h1 h2 ⊢
      by_cases hlen : mm.length < env.ipsize + 2
      · have hu : updateEdge env ansn es mm = none := by
          unfold updateEdge
          split
          · rfl
          · rw [if_neg (by omega : ¬ env.lqLevel = 0)]
            split
            · rfl
            · rw [if_neg (by rw [hv]; decide)]
        rw [hu]
        have : mm.length % (env.ipsize + 4) ≠ 0 := by
          rw [Nat.mod_eq_of_lt (by omega)]; omega
        exact iff_of_true rfl this
      · have hu : ∃ es' a, updateEdge env ansn es mm = some (es', a, mm.drop (env.ipsize + 4)) := by
          unfold updateEdge
          rw [if_neg (by omega), if_neg (by omega : ¬ env.lqLevel = 0), if_neg hlen]
          split
          · exact ⟨_, _, rfl⟩
          · rw [if_neg (by rw [hv]; decide)]
            exact ⟨_, _, rfl⟩
        obtain ⟨es', a, hu⟩ := hu
        rw [hu]
        show walk env ansn fuel es' (bump b a) (mm.drop (env.ipsize + 4)) = none ↔ _
        have hl4 : env.ipsize + 4 ≤ mm.length := by rcases hip with h | h <;> rw [h] at hlen ⊢ <;> omega
        rw [ih es' (bump b a) (mm.drop (env.ipsize + 4)) (by rw [List.length_drop]; omega) (by
          rw [List.length_drop]; rcases hip with h | h <;> rw [h] <;> omega), List.length_drop]
        rw [← Nat.mod_eq_sub_mod hl4]

/-- When a TC message that the packet parser lets through is read beyond its end: exactly if it is too
short for the TC header, or accepted and not a whole number of neighbours. -/
theorem C21_tc_exact {env : Env} (hv : ∀ a, env.valid a = true) (hlq : 0 < env.lqLevel)
    (hz : env.mainZero = false) {t : Tab} {m : List Nat} (h4 : m.length % 4 = 0)
    (hty : m.getD 0 0 = 202 ∨ m.getD 0 0 = 2) :
    inputTc env true t m = .overread ↔ m.length < msgSize env.ipsize 0 ∨
      ∃ h body, readHdr env.ipsize m = some (h, body) ∧ judge (t h.orig) h.seq h.ansn = none ∧
        body.length % (env.ipsize + 4) ≠ 0 := by
  have hip : env.ipsize = 4 ∨ env.ipsize = 16 := by unfold Env.ipsize; split <;> omega
  have h0 : msgSize env.ipsize 0 = off env.ipsize := by unfold msgSize off; omega
  unfold inputTc
  rw [if_neg (by rintro ⟨h1, h2⟩; rcases hty with h | h; exact h1 h; exact h2 h), if_neg (by decide)]
  cases hr : readHdr env.ipsize m with
  | none =>
    refine iff_of_true rfl (Or.inl ?_)
    unfold readHdr at hr
    split at hr
    · rename_i h; rw [h0]; exact h
    · cases hr
  | some p =>
    obtain ⟨h, body⟩ := p
    have hlen : ¬ m.length < off env.ipsize ∧ body = m.drop (off env.ipsize) := by
      unfold readHdr at hr
      split at hr
      · cases hr
      · rename_i h; cases hr; exact ⟨h, rfl⟩
    have hb4 : body.length % 4 = 0 := by
      rw [hlen.2, List.length_drop]
      unfold off
      rcases hip with h | h <;> rw [h] <;> omega
    simp only
    cases hj : judge (t h.orig) h.seq h.ansn with
    | some e =>
      refine iff_of_false (fun h => by cases h) ?_
      rintro (h1 | ⟨h', b', h1, h2, _⟩)
      · rw [h0] at h1; exact hlen.1 h1
      · cases h1; rw [hj] at h2; cases h2
    | none =>
      simp only
      rw [if_neg (by rw [hz]; rintro ⟨_, h⟩; cases h)]
      have hw := walk_none (ansn := h.ansn) hv hlq body.length (edgesOf (t h.orig)) none body
        (Nat.le_refl _) hb4
      cases hwk : walk env h.ansn body.length (edgesOf (t h.orig)) none body with
      | none => exact iff_of_true rfl (Or.inr ⟨h, body, rfl, hj, hw.1 hwk⟩)
      | some r =>
        obtain ⟨es, b⟩ := r
        refine iff_of_false ?_ ?_
        · simp only
          unfold finish
          split
          · intro h; cases h
          · intro h; cases h
          · split
            · intro h; cases h
            · intro h; cases h
        · rintro (h1 | ⟨h', b', h1, _, h3⟩)
          · rw [h0] at h1; exact hlen.1 h1
          · cases h1
            rw [hw.2 h3] at hwk; cases hwk

/-- C21, TC part: a message of the size of the header and a whole number of neighbours is never read
beyond its end, if no address is denied and LQ is on.

Full statement: for every message that the parser lets through.  It fails: `C21_tc_overreads`,
`C62_denied_overreads`, `C63_overreads`. -/
theorem C21_tc_partial {env : Env} (hv : ∀ a, env.valid a = true) (hlq : 0 < env.lqLevel)
    (hz : env.mainZero = false) {t : Tab} {sym : Bool} {m : List Nat} {k : Nat}
    (hlen : m.length = msgSize env.ipsize k) : inputTc env sym t m ≠ .overread := by
  have hip : env.ipsize = 4 ∨ env.ipsize = 16 := by unfold Env.ipsize; split <;> omega
  by_cases hty : m.getD 0 0 = 202 ∨ m.getD 0 0 = 2
  · cases sym with
    | false =>
      unfold inputTc
      rw [if_neg (by rintro ⟨h1, h2⟩; rcases hty with h | h; exact h1 h; exact h2 h), if_pos rfl]
      intro h; cases h
    | true =>
      rw [ne_eq, C21_tc_exact hv hlq hz (by
        rw [hlen]; unfold msgSize
        rcases hip with h | h <;> rw [h] <;> omega) hty]
      rintro (h | ⟨h, body, h1, _, h3⟩)
      · rw [hlen] at h
        unfold msgSize at h
        rw [Nat.zero_mul] at h
        omega
      · apply h3
        have : body.length = k * (env.ipsize + 4) := by
          unfold readHdr at h1
          split at h1
          · cases h1
          · cases h1
            rw [List.length_drop, hlen]
            unfold msgSize off
            omega
        rw [this, Nat.mul_mod_left]
  · unfold inputTc
    rw [if_pos ⟨fun h => hty (Or.inl h), fun h => hty (Or.inr h)⟩]
    intro h; cases h

/-- Whether processing a message in an empty topology set reads beyond its end. -/
def overreads (env : Env) (m : List Nat) : Bool :=
  match inputTc env true (fun _ => none) m with
  | .overread => true
  | _ => false

/-- A message that ends with the message header, and one that ends after an address without link
quality: the parser lets both through, and both are read beyond their end. -/
theorem C21_tc_overreads :
    overreads host4 [202, 134, 0, 12, 10, 0, 0, 100, 255, 0, 0, 1] = true ∧
    overreads host4 [202, 134, 0, 20, 10, 0, 0, 100, 255, 0, 0, 1, 0, 1, 255, 255, 10, 0, 0, 1] =
      true := by decide

/-! ### C62 -/

/-- C62 for messages without denied addresses: every announced neighbour is registered with its
quality.

Full statement: in a message that also contains denied addresses, every other neighbour is registered
with its quality.  It fails: `C62_denied_garbles`, `C62_denied_overreads`. -/
theorem C62_allowed_partial {env : Env} {evs : List Ev} {t t' : Tab} (hby : ∀ ev ∈ evs, Bytes ev)
    (hr : run env (fun _ => none) evs = some t) {h : Hdr} {ns : List Item} (hne : ns ≠ [])
    (hacc : Accepts env ns) (henc : Encodable env h ns) (hn : Next (t h.orig) h.seq h.ansn) {fwd : Bool}
    (hok : inputTc env true t (encode h ns) = .ok (t', fwd)) :
    ∀ n ∈ ns, announced h.ansn n ∈ edgesOf (t' h.orig) := by
  intro n hnm
  have hgood := good_run evs hby good_start hr
  have hes := fold_put_sorted (ansn := h.ansn) ns _ (good_edges hgood h.orig)
    (fun n hn => ⟨(hacc.2.2.1 n hn).1.1, (hacc.2.2.1 n hn).1.2.1⟩)
  rw [input_new hgood hacc henc hn] at hok
  have hin : announced h.ansn n ∈ ns.foldl (put env h.ansn) (edgesOf (t h.orig)) :=
    (mem_fold_put ns _ _ hacc.2.2.2).2 (Or.inl ⟨n, hnm, (edgeFor_eq (hacc.2.2.1 n hnm).1).symm⟩)
  have hends : ends none ns ≠ none := by
    cases ns with
    | nil => exact absurd rfl hne
    | cons x xs =>
      have : ∀ (l : List Item) p, ends (some p) l ≠ none := by
        intro l
        induction l with
        | nil => intro p h; cases h
        | cons y ys ih => intro p; exact ih _
      exact this xs _
  unfold finish at hok
  split at hok
  · cases hok
  · cases hok
    unfold set
    rw [if_pos rfl]
    exact hin
  · split at hok
    · rename_i h0; exact absurd h0 hends
    · cases hok
      unfold set
      rw [if_pos rfl]
      show _ ∈ revoke _ _ _ _ _ _
      rw [revoke_eq _ false hes.1 (fun h => by cases h), List.mem_filter]
      refine ⟨hin, ?_⟩
      have : Seqno.greater h.ansn (announced h.ansn n).ansn = false := greater_irrefl _
      rw [this, Bool.and_false]
      rfl

/-- 127.0.0.1 is denied and followed by two neighbours.  The receiver does not skip its link quality,
so it takes the quality 255/200 for the neighbour 255.200.0.0 with quality 10/0, and the quality of
the next neighbour for yet another one; 10.0.0.5 and 10.0.0.6 are not registered.  Here the last byte
pattern is a denied address too, so the message is not read beyond its end. -/
theorem C62_denied_garbles :
    (match inputTc host4 true (fun _ => none)
        (encode ⟨134, origA, 255, 0, 1, 1, 0xff, 0xff⟩
          [⟨[127, 0, 0, 1], 255, 200⟩, ⟨[10, 0, 0, 5], 0, 0⟩]) with
      | .ok (t, _) => edgesOf (t origA)
      | _ => []) = [⟨[255, 200, 0, 0], 1, 10, 0⟩] := by decide

/-- A denied address alone makes the receiver read beyond the message. -/
theorem C62_denied_overreads :
    overreads host4 (encode ⟨134, origA, 255, 0, 1, 1, 0xff, 0xff⟩ [⟨[127, 0, 0, 1], 255, 200⟩]) =
      true := by decide

/-! ### C63 -/

private theorem walk_known {env : Env} {ansn : Nat} (hlq : env.lqLevel = 0) :
    ∀ (as : List (List Nat)) (fuel : Nat) (es : List Edge) (b : Option (List Nat × List Nat)),
    (∀ a ∈ as, a.length = env.ipsize ∧ known es a = true) → as.length ≤ fuel →
    ∃ b', walk env ansn fuel es b as.flatten =
      some (as.foldl (fun es a => touchEdge a ansn es) es, b') := by
  intro as
  induction as with
  | nil => intro fuel es b _ _; exact ⟨b, by rw [List.flatten_nil, walk]; rfl⟩
  | cons a as ih =>
    intro fuel es b h hf
    rw [List.length_cons] at hf
    cases fuel with
    | zero => omega
    | succ fuel =>
      have ha := h a (List.mem_cons_self ..)
      have hu : updateEdge env ansn es (a ++ as.flatten) =
          some (touchEdge a ansn es, a, as.flatten) := by
        have ht : (a ++ as.flatten).take env.ipsize = a := by rw [← ha.1, List.take_left]
        have hd : (a ++ as.flatten).drop env.ipsize = as.flatten := by rw [← ha.1, List.drop_left]
        unfold updateEdge
        rw [ht, hd, if_neg (by rw [List.length_append]; omega), if_pos ha.2, if_pos hlq]
      rw [List.flatten_cons]
      obtain ⟨m, hm⟩ : ∃ m, a ++ as.flatten = m := ⟨_, rfl⟩
      rw [hm] at hu ⊢
      have hne : m ≠ [] := by
        intro he
        rw [← hm] at he
        have := congrArg List.length he
        rw [List.length_append, ha.1] at this
        have := ipsize_pos env
        simp at *
        omega
      cases m with
      | nil => exact absurd rfl hne
      | cons x m =>
        rw [walk, hu]
        refine ih fuel (touchEdge a ansn es) (bump b a) (fun a' ha' => ?_) (by omega)
        have h' := h a' (List.mem_cons_of_mem _ ha')
        refine ⟨h'.1, ?_⟩
        obtain ⟨e, he, hd⟩ := known_iff.1 h'.2
        refine known_iff.2 ⟨_, List.mem_map.2 ⟨e, he, rfl⟩, ?_⟩
        split
        · exact hd
        · exact hd

/-- C63 for neighbours that the receiver knows already: with LQ level 0 they are refreshed, and the
message is not read beyond its end.

Full statement: for all neighbours.  It fails for new ones: `C63_skips_neighbours`,
`C63_overreads`. -/
theorem C63_known_partial {env : Env} (hlq : env.lqLevel = 0) {ansn : Nat} {as : List (List Nat)}
    {es : List Edge} (h : ∀ a ∈ as, a.length = env.ipsize ∧ known es a = true) :
    ∃ es' b, walk env ansn as.flatten.length es none as.flatten = some (es', b) ∧
      es'.map (fun e => e.dest) = es.map (fun e => e.dest) ∧
      (∀ e ∈ es', e.dest ∈ as → e.ansn = ansn) := by
  have hlen : as.length ≤ as.flatten.length := by
    have hp := ipsize_pos env
    clear hlq
    induction as with
    | nil => exact Nat.zero_le _
    | cons a as ih =>
      have := ih (fun x hx => h x (List.mem_cons_of_mem _ hx))
      have h1 := (h a (List.mem_cons_self ..)).1
      rw [List.flatten_cons, List.length_append, List.length_cons]
      omega
  obtain ⟨b, hb⟩ := walk_known (ansn := ansn) hlq as _ es none h hlen
  refine ⟨_, b, hb, ?_, ?_⟩
  · clear hb hlen h
    induction as generalizing es with
    | nil => rfl
    | cons a as ih =>
      rw [List.foldl_cons, ih]
      unfold touchEdge
      rw [List.map_map]
      apply List.map_congr_left
      intro e _
      show (if e.dest = a then _ else _ : Edge).dest = _
      split <;> rfl
  · have key : ∀ (as : List (List Nat)) (es : List Edge) (P : List Nat → Prop),
        (∀ e ∈ es, P e.dest → e.ansn = ansn) →
        ∀ e ∈ as.foldl (fun es a => touchEdge a ansn es) es, P e.dest ∨ e.dest ∈ as →
          e.ansn = ansn := by
      intro as
      induction as with
      | nil => intro es P hP e he h; rcases h with h | h; exact hP e he h; cases h
      | cons a as ih =>
        intro es P hP e he h
        rw [List.foldl_cons] at he
        refine ih (touchEdge a ansn es) (fun x => P x ∨ x = a) ?_ e he ?_
        · intro x hx hPx
          obtain ⟨y, hy, rfl⟩ := List.mem_map.1 hx
          split
          · rfl
          · rename_i hne
            rw [if_neg hne] at hPx
            rcases hPx with hPx | hPx
            · exact hP y hy hPx
            · exact absurd hPx hne
        · rcases h with h | h
          · exact Or.inl (Or.inl h)
          · rcases List.mem_cons.1 h with h | h
            · exact Or.inl (Or.inr h)
            · exact Or.inr h
    intro e he hd
    exact key as es (fun _ => False) (fun _ _ h => h.elim) e he (Or.inr hd)

/-- A receiver with LQ level 0. -/
def hostRfc : Env := { host4 with lqLevel := 0 }

/-- Of four new neighbours only the first and the third are registered; the addresses of the others
are taken for link qualities. -/
theorem C63_skips_neighbours :
    (match inputTc hostRfc true (fun _ => none)
        (encodeRfc ⟨134, origA, 255, 0, 1, 1, 0, 0⟩
          [[10, 0, 0, 1], [10, 0, 0, 2], [10, 0, 0, 3], [10, 0, 0, 4]]) with
      | .ok (t, _) => edgesOf (t origA)
      | _ => []) = [⟨[10, 0, 0, 1], 1, 10, 0⟩, ⟨[10, 0, 0, 3], 1, 10, 0⟩] := by decide

/-- A single new neighbour makes the receiver read beyond the message. -/
theorem C63_overreads :
    overreads hostRfc (encodeRfc ⟨134, origA, 255, 0, 1, 1, 0, 0⟩ [[10, 0, 0, 1]]) = true := by decide

/-! ### Examples -/

/-- A message that is newer replaces the edges. -/
example : edgesAfter host4 [tcMsg 2000 100 [[10, 0, 0, 1], [10, 0, 0, 2]],
    tcMsg 2001 101 [[10, 0, 0, 2], [10, 0, 0, 3]]] =
      some [([10, 0, 0, 2], 101), ([10, 0, 0, 3], 101)] := by decide

/-- Also across the wrap of both numbers. -/
example : edgesAfter host4 [tcMsg 65535 65535 [[10, 0, 0, 1], [10, 0, 0, 2]],
    tcMsg 0 0 [[10, 0, 0, 3]]] = some [([10, 0, 0, 3], 0)] := by decide

/-- Only the range between the borders is replaced: here the addresses below 0.0.0.2 in the order of
a little-endian host. -/
example : edgesAfter host4 [tcMsg 1 1 [[10, 0, 0, 1], [10, 0, 0, 2], [10, 0, 0, 3]],
    .msg true (encode ⟨134, origA, 255, 0, 2, 2, 0xff, 2⟩ [⟨[10, 0, 0, 0], 255, 255⟩])] =
      some [([10, 0, 0, 0], 2), ([10, 0, 0, 2], 1), ([10, 0, 0, 3], 1)] := by decide

/-- Without borders the old edges stay until the timer fires. -/
example : edgesAfter host4 [tcMsg 1 1 [[10, 0, 0, 1]],
      .msg true (encode ⟨134, origA, 255, 0, 2, 2, 0, 0⟩ [⟨[10, 0, 0, 2], 255, 255⟩])] =
      some [([10, 0, 0, 1], 1), ([10, 0, 0, 2], 2)] ∧
    edgesAfter host4 [tcMsg 1 1 [[10, 0, 0, 1]],
      .msg true (encode ⟨134, origA, 255, 0, 2, 2, 0, 0⟩ [⟨[10, 0, 0, 2], 255, 255⟩]), .gc origA] =
      some [([10, 0, 0, 2], 2)] := by decide

/-- A TC in two fragments replaces everything. -/
example : edgesAfter host4 (tcMsg 1 1 [[10, 0, 0, 7], [9, 0, 0, 2], [11, 0, 0, 0]] ::
    (fragMsgs ⟨134, origA, 255, 0, 0, 2, 0, 0⟩
      [(2, ⟨0xff, 26, [⟨[10, 0, 0, 1], 255, 255⟩]⟩),
       (3, ⟨26, 0xff, [⟨[9, 0, 0, 2], 255, 255⟩]⟩)]).map (fun m => Ev.msg true m)) =
      some [([10, 0, 0, 1], 2), ([9, 0, 0, 2], 2)] := by decide

/-- An empty message with borders removes the originator. -/
example : (run host4 (fun _ => none) [tcMsg 1 1 [[10, 0, 0, 1]], tcMsg 2 2 []]).map
    (fun t => t origA) = some none := by decide

/-- With LQ level 0, neighbours that are known are refreshed. -/
example : (walk hostRfc 7 8 [⟨[10, 0, 0, 1], 6, 1, 1⟩, ⟨[10, 0, 0, 2], 6, 1, 1⟩] none
    [10, 0, 0, 2, 10, 0, 0, 1]).map (fun r => r.1.map (fun e => (e.dest, e.ansn))) =
      some [([10, 0, 0, 1], 7), ([10, 0, 0, 2], 7)] := by decide

end Verif.TcSet
