import Verif.EgFileModel
import Verif.GwCostModel
import Verif.EgressModel
/-
C126: the egress interfaces have the parameters that the egress file gives them, and
changes are noticed.
-/
namespace Verif.EgFile

/-! ### Specification -/

/-- The last entry for an interface. -/
def lastFor (name : List Nat) (es : List Entry) : Option Entry := es.reverse.find? (fun e => decide (e.name = name))

/-- The parameters of an interface: those of the last entry if it gives a bandwidth in
both directions. -/
def paramsOf (E : Env) (name : List Nat) (up : Bool) (es : List Entry) : Bw :=
  match lastFor name es with
  | none => clear E up
  | some e =>
    if e.uk = 0 ∨ e.dk = 0 then clear E up
    else ⟨e.rn, e.rg, e.uk, e.dk, e.path, e.net, e.gw, E.cost up e.path e.uk e.dk⟩

/-- The entries of a file. -/
def entriesOf (E : Env) (content : List Nat) : List Entry := (lines content.length content).filterMap (lineEntry E.v4)

/-- A line in the notation of the comments in the file, with white space `sp` in every
gap and `lvl` optional parts. -/
structure Text where
  name : List Nat
  rn : List Nat
  rg : List Nat
  up : List Nat
  down : List Nat
  path : List Nat
  net : Option (List Nat × List Nat)
  gw : List Nat
  lvl : Nat
  sp : Nat → List Nat

def netText : Option (List Nat × List Nat) → List Nat
  | none => []
  | some (ip, len) => ip ++ 47 :: len

def render3 (t : Text) : List Nat := if 3 ≤ t.lvl then t.sp 12 ++ 44 :: (t.sp 13 ++ (t.gw ++ t.sp 14)) else t.sp 14

def render2 (t : Text) : List Nat :=
  if 2 ≤ t.lvl then t.sp 10 ++ 44 :: (t.sp 11 ++ (netText t.net ++ render3 t)) else t.sp 14

def render1 (t : Text) : List Nat := if 1 ≤ t.lvl then t.sp 8 ++ 44 :: (t.sp 9 ++ (t.path ++ render2 t)) else t.sp 14

def render (t : Text) : List Nat :=
  t.name ++ (t.sp 0 ++ 61 :: (t.sp 1 ++ (t.rn ++ (t.sp 2 ++ 44 :: (t.sp 3 ++ (t.rg ++ (t.sp 4 ++ 44 :: (t.sp 5 ++
    (t.up ++ (t.sp 6 ++ 44 :: (t.sp 7 ++ (t.down ++ render1 t))))))))))))

structure Text.Ok (t : Text) : Prop where
  name : t.name ≠ [] ∧ (∀ c ∈ t.name, isSpace c = false ∧ c ≠ 61)
  nocomment : t.name.head? ≠ some 35
  rn : ∀ c ∈ t.rn, isDigit c = true
  rg : ∀ c ∈ t.rg, isDigit c = true
  up : ∀ c ∈ t.up, isDigit c = true
  down : ∀ c ∈ t.down, isDigit c = true
  path : ∀ c ∈ t.path, isDigit c = true
  net : ∀ p, t.net = some p → p.1 ≠ [] ∧ (∀ c ∈ p.1, isAddr c = true) ∧ p.2 ≠ [] ∧ (∀ c ∈ p.2, isDigit c = true)
  gw : ∀ c ∈ t.gw, isAddr c = true
  sp : ∀ k, ∀ c ∈ t.sp k, isSpace c = true
  lvl1 : t.lvl < 1 → t.path = []
  lvl2 : t.lvl < 2 → t.net = none
  lvl3 : t.lvl < 3 → t.gw = []
  line : ∀ c ∈ render t, c ≠ 0 ∧ c ≠ 10 ∧ c ≠ 13

/-- A number that a line may give. -/
def Fits (s : List Nat) : Prop := value s < 18446744073709551616

/-- What the flags are about. -/
def Differs (a b : Bw) : Prop := a.cost ≠ b.cost ∨ (a.rn, a.net) ≠ (b.rn, b.net) ∨ (a.rg, a.gw) ≠ (b.rg, b.gw)

/-- Which interfaces are up after some events. -/
def upsAfter (l : List (List Nat × Bool)) (evs : List Ev) : List (List Nat × Bool) :=
  evs.foldl (fun l ev => match ev with
    | .poll _ => l
    | .link n b => l.map (fun p => if p.1 = n then (p.1, b) else p)) l

/-- The entries of the file as it was at the last reading. -/
def entriesAfter (E : Env) (evs : List Ev) : List Entry :=
  evs.foldl (fun es ev => match ev with
    | .poll none => []
    | .poll (some (_, c)) => entriesOf E c
    | .link _ _ => es) []

/-! ### Reading -/

private def applyAll (E : Env) (es : List Entry) (i : Iface) : Iface :=
  es.foldl (fun i e => if i.name = e.name then setBw E i e else i) i

private theorem setBw_name (E : Env) (i : Iface) (e : Entry) : (setBw E i e).name = i.name := rfl

private theorem update_map (E : Env) (e : Entry) : ∀ (l : List Iface), (l.map (fun i => i.name)).Nodup →
    update E l e = l.map (fun i => if i.name = e.name then setBw E i e else i) := by
  intro l
  induction l with
  | nil => intro _; rfl
  | cons i l ih =>
    intro h
    rw [List.map_cons, List.nodup_cons] at h
    unfold update
    rw [List.map_cons]
    by_cases hi : i.name = e.name
    · rw [if_pos hi, if_pos hi]
      congr 1
      have : l.map (fun j => if j.name = e.name then setBw E j e else j) = l.map (fun j => j) := by
        apply List.map_congr_left
        intro j hj
        rw [if_neg]
        intro hje
        apply h.1
        rw [hi, ← hje]
        exact List.mem_map_of_mem (f := fun i : Iface => i.name) hj
      rw [this, List.map_id']
    · rw [if_neg hi, if_neg hi, ih h.2]

private theorem fold_map (E : Env) : ∀ (ls : List (List Nat)) (l : List Iface), (l.map (fun i => i.name)).Nodup →
    ls.foldl (doLine E) l = l.map (applyAll E (ls.filterMap (lineEntry E.v4))) := by
  intro ls
  induction ls with
  | nil =>
    intro l _
    show l = l.map (fun i => i)
    rw [List.map_id']
  | cons raw ls ih =>
    intro l h
    rw [List.foldl_cons]
    cases hl : lineEntry E.v4 raw with
    | none =>
      rw [List.filterMap_cons_none hl, show doLine E l raw = l by unfold doLine; rw [hl]]
      exact ih l h
    | some e =>
      rw [List.filterMap_cons_some hl, show doLine E l raw = update E l e by unfold doLine; rw [hl], update_map E e l h]
      have hn : ((l.map (fun i => if i.name = e.name then setBw E i e else i)).map (fun i => i.name)).Nodup := by
        rw [List.map_map]
        have : ((fun i : Iface => i.name) ∘ fun i => if i.name = e.name then setBw E i e else i) =
            fun i => i.name := by
          funext i
          show (if i.name = e.name then setBw E i e else i).name = i.name
          split <;> rfl
        rw [this]
        exact h
      have := ih _ hn
      rw [this, List.map_map]
      rfl

private theorem applyAll_spec (E : Env) (es : List Entry) : ∀ (i : Iface),
    (applyAll E es i).name = i.name ∧ (applyAll E es i).up = i.up ∧ (applyAll E es i).prev = i.prev ∧
    (lastFor i.name es = none → (applyAll E es i).cur = i.cur ∧ (applyAll E es i).inFile = i.inFile) ∧
    (∀ e, lastFor i.name es = some e → (applyAll E es i).cur = (setBw E i e).cur ∧ (applyAll E es i).inFile = true) := by
  have gen : ∀ (rs : List Entry) (i : Iface),
      (applyAll E rs.reverse i).name = i.name ∧ (applyAll E rs.reverse i).up = i.up ∧
      (applyAll E rs.reverse i).prev = i.prev ∧
      (rs.find? (fun e => decide (e.name = i.name)) = none →
        (applyAll E rs.reverse i).cur = i.cur ∧ (applyAll E rs.reverse i).inFile = i.inFile) ∧
      (∀ e, rs.find? (fun e => decide (e.name = i.name)) = some e →
        (applyAll E rs.reverse i).cur = (setBw E i e).cur ∧ (applyAll E rs.reverse i).inFile = true) := by
    intro rs
    induction rs with
    | nil =>
      intro i
      refine ⟨rfl, rfl, rfl, fun _ => ⟨rfl, rfl⟩, ?_⟩
      intro e h
      cases h
    | cons r rs ih =>
      intro i
      obtain ⟨h1, h2, h3, h4, h5⟩ := ih i
      have hs : applyAll E (r :: rs).reverse i =
          (if (applyAll E rs.reverse i).name = r.name then setBw E (applyAll E rs.reverse i) r
            else applyAll E rs.reverse i) := by
        unfold applyAll
        rw [List.reverse_cons, List.foldl_append]
        rfl
      rw [hs, List.find?_cons, h1]
      by_cases hr : i.name = r.name
      · rw [if_pos hr]
        have hd : decide (r.name = i.name) = true := by simp [hr]
        rw [hd]
        refine ⟨h1, h2, h3, (fun h => (by cases h)), ?_⟩
        intro e he
        cases he
        refine ⟨?_, rfl⟩
        unfold setBw
        simp only [h2]
      · rw [if_neg hr]
        have hd : decide (r.name = i.name) = false := by
          rw [decide_eq_false_iff_not]
          exact fun h => hr h.symm
        rw [hd]
        exact ⟨h1, h2, h3, h4, h5⟩
  intro i
  have := gen es.reverse i
  rw [List.reverse_reverse] at this
  exact this

/-- After a file has been read, every interface has the parameters the file gives it,
whatever it had before, and remembers the old ones; the flags say whether the costs, the
network or the gateway differ. -/
theorem C126_read (E : Env) (content : List Nat) (l : List Iface) (hn : (l.map (fun i => i.name)).Nodup) :
    (readFile E content l).map (fun i => (i.name, i.up, i.prev, i.cur)) =
      l.map (fun i => (i.name, i.up, i.cur, paramsOf E i.name i.up (entriesOf E content))) ∧
    (∀ i ∈ readFile E content l,
      (i.costsCh = true ↔ i.prev.cost ≠ i.cur.cost) ∧
      (i.netCh = true ↔ (i.prev.rn, i.prev.net) ≠ (i.cur.rn, i.cur.net)) ∧
      (i.gwCh = true ↔ (i.prev.rg, i.prev.gw) ≠ (i.cur.rg, i.cur.gw)) ∧
      (i.changed = true ↔ i.costsCh = true ∨ i.netCh = true ∨ i.gwCh = true)) := by
  constructor
  · unfold readFile
    have hb : ((l.map begin).map (fun i => i.name)).Nodup := by
      rw [List.map_map]
      exact hn
    rw [fold_map E _ _ hb, List.map_map, List.map_map, List.map_map]
    apply List.map_congr_left
    intro i _
    show ((finish E (applyAll E _ (begin i))).name, (finish E (applyAll E _ (begin i))).up,
      (finish E (applyAll E _ (begin i))).prev, (finish E (applyAll E _ (begin i))).cur) = _
    obtain ⟨h1, h2, h3, h4, h5⟩ := applyAll_spec E ((lines content.length content).filterMap (lineEntry E.v4)) (begin i)
    have hcur : (finish E (applyAll E ((lines content.length content).filterMap (lineEntry E.v4)) (begin i))).cur =
        paramsOf E i.name i.up (entriesOf E content) := by
      show (absent E _).cur = _
      unfold paramsOf entriesOf absent
      have hnm : (begin i).name = i.name := rfl
      rw [hnm] at h4 h5
      cases hl : lastFor i.name ((lines content.length content).filterMap (lineEntry E.v4)) with
      | none =>
        have := (h4 hl).2
        rw [this, h2]
        rfl
      | some e =>
        obtain ⟨ha, hb⟩ := h5 e hl
        rw [hb, if_pos rfl, ha]
        rfl
    have hname : (finish E (applyAll E ((lines content.length content).filterMap (lineEntry E.v4)) (begin i))).name = i.name := by
      rw [← show (begin i).name = i.name from rfl, ← h1]
      show (absent E _).name = _
      unfold absent
      split <;> rfl
    have hup : (finish E (applyAll E ((lines content.length content).filterMap (lineEntry E.v4)) (begin i))).up = i.up := by
      rw [← show (begin i).up = i.up from rfl, ← h2]
      show (absent E _).up = _
      unfold absent
      split <;> rfl
    have hprev : (finish E (applyAll E ((lines content.length content).filterMap (lineEntry E.v4)) (begin i))).prev = i.cur := by
      rw [← show (begin i).prev = i.cur from rfl, ← h3]
      show (absent E _).prev = _
      unfold absent
      split <;> rfl
    rw [hcur, hname, hup, hprev]
  · intro i hi
    unfold readFile at hi
    rw [List.mem_map] at hi
    obtain ⟨j, _, rfl⟩ := hi
    rw [show finish E j = flags (absent E j) from rfl]
    generalize absent E j = k
    unfold flags costsChanged netChanged gwChanged
    simp only [bne_iff_ne, ne_eq, Bool.or_eq_true, Prod.mk.injEq]
    refine ⟨trivial, ?_, ?_, ?_⟩
    · constructor
      · rintro (h | h) ⟨h1, h2⟩
        · exact h h1
        · exact h h2
      · intro h
        by_cases h1 : k.prev.rn = k.cur.rn
        · exact Or.inr (fun h2 => h ⟨h1, h2⟩)
        · exact Or.inl h1
    · constructor
      · rintro (h | h) ⟨h1, h2⟩
        · exact h h1
        · exact h h2
      · intro h
        by_cases h1 : k.prev.rg = k.cur.rg
        · exact Or.inr (fun h2 => h ⟨h1, h2⟩)
        · exact Or.inl h1
    · constructor
      · rintro ((h | h) | h)
        · exact Or.inl h
        · exact Or.inr (Or.inl h)
        · exact Or.inr (Or.inr h)
      · rintro (h | h | h)
        · exact Or.inl (Or.inl h)
        · exact Or.inl (Or.inr h)
        · exact Or.inr h

/-! ### Lines -/

private theorem takeWhile_app (p : Nat → Bool) (a b : List Nat) (ha : ∀ c ∈ a, p c = true) :
    (a ++ b).takeWhile p = a ++ b.takeWhile p := by
  induction a with
  | nil => rfl
  | cons x a ih =>
    rw [List.cons_append, List.takeWhile_cons_of_pos (ha x List.mem_cons_self),
      ih (fun c hc => ha c (List.mem_cons_of_mem _ hc)), List.cons_append]

private theorem dropWhile_app (p : Nat → Bool) (a b : List Nat) (ha : ∀ c ∈ a, p c = true) :
    (a ++ b).dropWhile p = b.dropWhile p := by
  induction a with
  | nil => rfl
  | cons x a ih =>
    rw [List.cons_append, List.dropWhile_cons_of_pos (ha x List.mem_cons_self),
      ih (fun c hc => ha c (List.mem_cons_of_mem _ hc))]

private theorem skip_app (a b : List Nat) (ha : ∀ c ∈ a, isSpace c = true) : skip (a ++ b) = skip b :=
  dropWhile_app _ _ _ ha

private theorem skip_skip (s : List Nat) : skip (skip s) = skip s := by
  unfold skip
  induction s with
  | nil => rfl
  | cons x s ih =>
    by_cases hx : isSpace x = true
    · rw [List.dropWhile_cons_of_pos hx, ih]
    · rw [List.dropWhile_cons_of_neg hx, List.dropWhile_cons_of_neg hx]

private theorem sep_hit (c : Nat) (hc : isSpace c = false) (a t : List Nat) (ha : ∀ c ∈ a, isSpace c = true) :
    sep c (a ++ c :: t) = some (skip t) := by
  unfold sep
  rw [skip_app _ _ ha, show skip (c :: t) = c :: t from List.dropWhile_cons_of_neg (by rw [hc]; decide)]
  show (if c = c then some (skip t) else none) = _
  rw [if_pos rfl]

private theorem skip_all (a : List Nat) (ha : ∀ c ∈ a, isSpace c = true) : skip a = [] := by
  have := skip_app a [] ha
  rw [List.append_nil] at this
  exact this

private theorem sep_miss (c : Nat) (a : List Nat) (ha : ∀ c ∈ a, isSpace c = true) : sep c a = none := by
  unfold sep
  rw [skip_all _ ha]

/-- Characters of a field are neither white space nor separators. -/
private structure Cls (p : Nat → Bool) : Prop where
  space : ∀ c, isSpace c = true → p c = false
  comma : p 44 = false

private theorem cls_digit : Cls isDigit := by
  constructor
  · intro c h
    unfold isSpace at h
    unfold isDigit
    simp only [Bool.or_eq_true, beq_iff_eq, Bool.and_eq_true, decide_eq_true_eq] at h
    simp only [Bool.and_eq_false_iff, decide_eq_false_iff_not]
    omega
  · rfl

private theorem cls_addr : Cls isAddr := by
  constructor
  · intro c h
    unfold isSpace at h
    unfold isAddr isDigit
    simp only [Bool.or_eq_true, beq_iff_eq, Bool.and_eq_true, decide_eq_true_eq] at h
    simp only [Bool.or_eq_false_iff, Bool.and_eq_false_iff, decide_eq_false_iff_not, beq_eq_false_iff_ne, ne_eq]
    omega
  · rfl

private theorem field_split (p : Nat → Bool) (hp : Cls p) (d r : List Nat) (hd : ∀ c ∈ d, p c = true)
    (hr : ∀ c t, skip r = c :: t → p c = false) :
    (skip (d ++ r)).takeWhile p = d ∧ skip ((skip (d ++ r)).dropWhile p) = skip r := by
  have stop : (skip r).takeWhile p = [] ∧ (skip r).dropWhile p = skip r := by
    cases hs : skip r with
    | nil => exact ⟨rfl, rfl⟩
    | cons c t =>
      have := hr c t hs
      exact ⟨List.takeWhile_cons_of_neg (by rw [this]; decide), List.dropWhile_cons_of_neg (by rw [this]; decide)⟩
  have stop2 : r.takeWhile p = [] ∧ r.dropWhile p = r := by
    cases r with
    | nil => exact ⟨rfl, rfl⟩
    | cons c t =>
      have : p c = false := by
        by_cases hc : isSpace c = true
        · exact hp.space c hc
        · exact hr c t (List.dropWhile_cons_of_neg hc)
      exact ⟨List.takeWhile_cons_of_neg (by rw [this]; decide), List.dropWhile_cons_of_neg (by rw [this]; decide)⟩
  cases d with
  | nil =>
    rw [List.nil_append, stop.1, stop.2]
    exact ⟨rfl, skip_skip r⟩
  | cons x d =>
    have hx : isSpace x = false := by
      cases hsp : isSpace x with
      | false => rfl
      | true =>
        have h1 := hp.space x hsp
        rw [hd x List.mem_cons_self] at h1
        cases h1
    have hsk : skip ((x :: d) ++ r) = (x :: d) ++ r := by
      rw [List.cons_append]
      exact List.dropWhile_cons_of_neg (by rw [hx]; decide)
    rw [hsk, takeWhile_app p _ _ hd, dropWhile_app p _ _ hd, stop2.1, stop2.2, List.append_nil]
    exact ⟨rfl, rfl⟩

private theorem sep_skip (c : Nat) (s t : List Nat) (h : skip s = skip t) : sep c s = sep c t := by
  unfold sep
  rw [h]

/-- A field, white space and a comma. -/
private theorem field_comma (p : Nat → Bool) (hp : Cls p) (d w t : List Nat) (hd : ∀ c ∈ d, p c = true)
    (hw : ∀ c ∈ w, isSpace c = true) :
    (skip (d ++ (w ++ 44 :: t))).takeWhile p = d ∧
    sep 44 ((skip (d ++ (w ++ 44 :: t))).dropWhile p) = some (skip t) := by
  have h := field_split p hp d (w ++ 44 :: t) hd (by
    intro c u hc
    rw [skip_app _ _ hw] at hc
    have : skip (44 :: t) = 44 :: t := rfl
    rw [this] at hc
    cases hc
    exact hp.comma)
  refine ⟨h.1, ?_⟩
  rw [sep_skip 44 _ _ h.2]
  exact sep_hit 44 rfl w t hw

/-- A field and white space at the end. -/
private theorem field_end (p : Nat → Bool) (hp : Cls p) (d w : List Nat) (hd : ∀ c ∈ d, p c = true)
    (hw : ∀ c ∈ w, isSpace c = true) :
    (skip (d ++ w)).takeWhile p = d ∧ sep 44 ((skip (d ++ w)).dropWhile p) = none ∧
    skip ((skip (d ++ w)).dropWhile p) = [] := by
  have h := field_split p hp d w hd (by
    intro c u hc
    rw [skip_all _ hw] at hc
    cases hc)
  refine ⟨h.1, ?_, ?_⟩
  · rw [sep_skip 44 _ _ h.2]
    exact sep_miss 44 w hw
  · rw [h.2, skip_all _ hw]

private theorem tail3_ok (t : Text) (ok : t.Ok) (s : List Nat) (hs : skip s = skip (render3 t)) :
    tail3 s = some t.gw := by
  unfold tail3
  rw [sep_skip 44 _ _ hs]
  unfold render3
  by_cases hl : 3 ≤ t.lvl
  · rw [if_pos hl, sep_hit 44 rfl _ _ (ok.sp 12)]
    simp only []
    rw [skip_app _ _ (ok.sp 13)]
    have := field_end isAddr cls_addr t.gw (t.sp 14) ok.gw (ok.sp 14)
    rw [this.1, this.2.2, if_pos rfl]
  · rw [if_neg hl, sep_miss 44 _ (ok.sp 14)]
    simp only []
    rw [hs, render3, if_neg hl, skip_all _ (ok.sp 14), if_pos rfl, ok.lvl3 (by omega)]

private theorem render3_head (t : Text) (ok : t.Ok) (p : Nat → Bool) (hp : Cls p) :
    ∀ c u, skip (render3 t) = c :: u → p c = false := by
  intro c u h
  unfold render3 at h
  by_cases hl : 3 ≤ t.lvl
  · rw [if_pos hl, skip_app _ _ (ok.sp 12)] at h
    have : skip (44 :: (t.sp 13 ++ (t.gw ++ t.sp 14))) = 44 :: (t.sp 13 ++ (t.gw ++ t.sp 14)) := rfl
    rw [this] at h
    cases h
    exact hp.comma
  · rw [if_neg hl, skip_all _ (ok.sp 14)] at h
    cases h

private theorem network_ok (t : Text) (ok : t.Ok) :
    ∃ s, network (skip (netText t.net ++ render3 t)) = some (t.net, s) ∧ skip s = skip (render3 t) := by
  have h3 := render3_head t ok
  cases hn : t.net with
  | none =>
    have hf := field_split isAddr cls_addr [] (render3 t) (by intro c hc; cases hc) (h3 isAddr cls_addr)
    rw [List.nil_append] at hf
    refine ⟨skip (render3 t), ?_, skip_skip _⟩
    show network (skip ([] ++ render3 t)) = _
    rw [List.nil_append]
    unfold network
    rw [hf.1, if_pos rfl]
  | some p =>
    obtain ⟨ip, len⟩ := p
    obtain ⟨h1, h2, h4, h5⟩ := ok.net (ip, len) hn
    simp only at h1 h2 h4 h5
    obtain ⟨x, d, hxd⟩ : ∃ x d, ip = x :: d := by
      cases ip with
      | nil => exact absurd rfl h1
      | cons x d => exact ⟨x, d, rfl⟩
    have hsk : skip (netText (some (ip, len)) ++ render3 t) = ip ++ (47 :: (len ++ render3 t)) := by
      show skip ((ip ++ 47 :: len) ++ render3 t) = _
      rw [List.append_assoc, List.cons_append]
      rw [hxd, List.cons_append]
      apply List.dropWhile_cons_of_neg
      intro hsp
      have ha := cls_addr.space x hsp
      rw [h2 x (by rw [hxd]; exact List.mem_cons_self)] at ha
      cases ha
    have ht : (ip ++ (47 :: (len ++ render3 t))).takeWhile isAddr = ip := by
      rw [takeWhile_app _ _ _ h2, List.takeWhile_cons_of_neg (by decide), List.append_nil]
    have hd : (ip ++ (47 :: (len ++ render3 t))).dropWhile isAddr = 47 :: (len ++ render3 t) := by
      rw [dropWhile_app _ _ _ h2, List.dropWhile_cons_of_neg (by decide)]
    have hstop : (render3 t).takeWhile isDigit = [] ∧ (render3 t).dropWhile isDigit = render3 t := by
      cases hr : render3 t with
      | nil => exact ⟨rfl, rfl⟩
      | cons c u =>
        have hc : isDigit c = false := by
          by_cases hc : isSpace c = true
          · exact cls_digit.space c hc
          · exact h3 isDigit cls_digit c u (by rw [hr]; exact List.dropWhile_cons_of_neg hc)
        exact ⟨List.takeWhile_cons_of_neg (by rw [hc]; decide), List.dropWhile_cons_of_neg (by rw [hc]; decide)⟩
    have ht2 : (len ++ render3 t).takeWhile isDigit = len := by
      rw [takeWhile_app _ _ _ h5, hstop.1, List.append_nil]
    have hd2 : (len ++ render3 t).dropWhile isDigit = render3 t := by
      rw [dropWhile_app _ _ _ h5, hstop.2]
    refine ⟨render3 t, ?_, rfl⟩
    rw [hsk]
    unfold network
    rw [ht, hd, if_neg h1]
    simp only []
    rw [ht2, hd2, if_pos ⟨trivial, h4⟩]

private theorem tail2_ok (t : Text) (ok : t.Ok) (s : List Nat) (hs : skip s = skip (render2 t)) :
    tail2 s = some (t.net, t.gw) := by
  unfold tail2
  rw [sep_skip 44 _ _ hs]
  unfold render2
  by_cases hl : 2 ≤ t.lvl
  · rw [if_pos hl, sep_hit 44 rfl _ _ (ok.sp 10)]
    simp only []
    rw [skip_app _ _ (ok.sp 11)]
    obtain ⟨u, hu1, hu2⟩ := network_ok t ok
    rw [hu1]
    simp only [Option.bind_some]
    rw [tail3_ok t ok u hu2]
    rfl
  · rw [if_neg hl, sep_miss 44 _ (ok.sp 14)]
    simp only []
    rw [hs, render2, if_neg hl, skip_all _ (ok.sp 14), if_pos rfl, ok.lvl2 (by omega), ok.lvl3 (by omega)]

private theorem render2_head (t : Text) (ok : t.Ok) : ∀ c u, skip (render2 t) = c :: u → isDigit c = false := by
  intro c u h
  unfold render2 at h
  by_cases hl : 2 ≤ t.lvl
  · rw [if_pos hl, skip_app _ _ (ok.sp 10)] at h
    have : ∀ v, skip (44 :: v) = 44 :: v := fun _ => rfl
    rw [this] at h
    cases h
    rfl
  · rw [if_neg hl, skip_all _ (ok.sp 14)] at h
    cases h

private theorem tail1_ok (t : Text) (ok : t.Ok) (s : List Nat) (hs : skip s = skip (render1 t)) :
    tail1 s = some (t.path, t.net, t.gw) := by
  unfold tail1
  rw [sep_skip 44 _ _ hs]
  unfold render1
  by_cases hl : 1 ≤ t.lvl
  · rw [if_pos hl, sep_hit 44 rfl _ _ (ok.sp 8)]
    simp only []
    rw [skip_app _ _ (ok.sp 9)]
    have hf := field_split isDigit cls_digit t.path (render2 t) ok.path (render2_head t ok)
    rw [hf.1, tail2_ok t ok _ hf.2]
    rfl
  · rw [if_neg hl, sep_miss 44 _ (ok.sp 14)]
    simp only []
    rw [hs, render1, if_neg hl, skip_all _ (ok.sp 14), if_pos rfl, ok.lvl1 (by omega), ok.lvl2 (by omega), ok.lvl3 (by omega)]

private theorem render1_head (t : Text) (ok : t.Ok) : ∀ c u, skip (render1 t) = c :: u → isDigit c = false := by
  intro c u h
  unfold render1 at h
  by_cases hl : 1 ≤ t.lvl
  · rw [if_pos hl, skip_app _ _ (ok.sp 8)] at h
    have : ∀ v, skip (44 :: v) = 44 :: v := fun _ => rfl
    rw [this] at h
    cases h
    rfl
  · rw [if_neg hl, skip_all _ (ok.sp 14)] at h
    cases h

private theorem parse_ok (t : Text) (ok : t.Ok) :
    parse (render t) = some ⟨t.name, t.rn, t.rg, t.up, t.down, t.path, t.net, t.gw⟩ := by
  obtain ⟨hne, hnm⟩ := ok.name
  have hname : ∀ c ∈ t.name, isName c = true := by
    intro c hc
    obtain ⟨h1, h2⟩ := hnm c hc
    unfold isName
    rw [h1]
    simp [h2]
  obtain ⟨x, d, hxd⟩ : ∃ x d, t.name = x :: d := by
    cases h : t.name with
    | nil => exact absurd h hne
    | cons x d => exact ⟨x, d, rfl⟩
  have hspname : ∀ c, isSpace c = true → isName c = false := by
    intro c h
    unfold isName
    rw [h]
    rfl
  have hstop : ∀ r, (t.sp 0 ++ 61 :: r).takeWhile isName = [] ∧ (t.sp 0 ++ 61 :: r).dropWhile isName = t.sp 0 ++ 61 :: r := by
    intro r
    cases h0 : t.sp 0 with
    | nil => exact ⟨rfl, rfl⟩
    | cons c w =>
      have := hspname c (ok.sp 0 c (by rw [h0]; exact List.mem_cons_self))
      exact ⟨List.takeWhile_cons_of_neg (by rw [this]; decide), List.dropWhile_cons_of_neg (by rw [this]; decide)⟩
  have hsk : skip (render t) = render t := by
    unfold render
    rw [hxd, List.cons_append]
    apply List.dropWhile_cons_of_neg
    rw [(hnm x (by rw [hxd]; exact List.mem_cons_self)).1]
    decide
  have hfirst : (skip (render t)).takeWhile isName = t.name := by
    rw [hsk]
    unfold render
    rw [takeWhile_app _ _ _ hname, (hstop _).1, List.append_nil]
  unfold parse
  rw [hfirst, if_neg hne, hsk]
  have hdrop : (render t).dropWhile isName = t.sp 0 ++ 61 :: (t.sp 1 ++ (t.rn ++ (t.sp 2 ++ 44 :: (t.sp 3 ++ (t.rg ++
      (t.sp 4 ++ 44 :: (t.sp 5 ++ (t.up ++ (t.sp 6 ++ 44 :: (t.sp 7 ++ (t.down ++ render1 t))))))))))) := by
    unfold render
    rw [dropWhile_app _ _ _ hname, (hstop _).2]
  rw [hdrop, sep_hit 61 rfl _ _ (ok.sp 0), Option.bind_some, skip_app _ _ (ok.sp 1)]
  have f1 := field_comma isDigit cls_digit t.rn (t.sp 2) (t.sp 3 ++ (t.rg ++
      (t.sp 4 ++ 44 :: (t.sp 5 ++ (t.up ++ (t.sp 6 ++ 44 :: (t.sp 7 ++ (t.down ++ render1 t)))))))) ok.rn (ok.sp 2)
  rw [f1.1, f1.2, Option.bind_some, skip_app _ _ (ok.sp 3)]
  have f2 := field_comma isDigit cls_digit t.rg (t.sp 4) (t.sp 5 ++ (t.up ++ (t.sp 6 ++ 44 :: (t.sp 7 ++ (t.down ++ render1 t)))))
    ok.rg (ok.sp 4)
  rw [f2.1, f2.2, Option.bind_some, skip_app _ _ (ok.sp 5)]
  have f3 := field_comma isDigit cls_digit t.up (t.sp 6) (t.sp 7 ++ (t.down ++ render1 t)) ok.up (ok.sp 6)
  rw [f3.1, f3.2, Option.bind_some, skip_app _ _ (ok.sp 7)]
  have f4 := field_split isDigit cls_digit t.down (render1 t) ok.down (render1_head t ok)
  rw [f4.1, tail1_ok t ok _ f4.2]
  rfl

private theorem cstr_eq (s : List Nat) (h : ∀ c ∈ s, c ≠ 0) : cstr s = s := by
  have := takeWhile_app (fun c => c != 0) s [] (by
    intro c hc
    simp [h c hc])
  rw [List.append_nil] at this
  unfold cstr
  rw [this, List.takeWhile_nil, List.append_nil]

private theorem strip_eq (s e : List Nat) (h : ∀ c ∈ s, c ≠ 0 ∧ c ≠ 10 ∧ c ≠ 13) (he : ∀ c ∈ e, c = 10 ∨ c = 13) :
    stripEols (s ++ e) = s := by
  unfold stripEols
  rw [List.reverse_append, dropWhile_app _ _ _ (by
    intro c hc
    rcases he c (List.mem_reverse.1 hc) with rfl | rfl <;> rfl)]
  have : s.reverse.dropWhile (fun c => c == 10 || c == 13) = s.reverse := by
    cases hr : s.reverse with
    | nil => rfl
    | cons x r =>
      apply List.dropWhile_cons_of_neg
      have := h x (by rw [← List.mem_reverse, hr]; exact List.mem_cons_self)
      simp [this.2.1, this.2.2]
  rw [this, List.reverse_reverse]

private theorem line_fields (v4 : List Nat → Option Nat) (t : Text) (ok : t.Ok) (e : List Nat) (he : ∀ c ∈ e, c = 10 ∨ c = 13) :
    lineEntry v4 (render t ++ e) = entry v4 ⟨t.name, t.rn, t.rg, t.up, t.down, t.path, t.net, t.gw⟩ := by
  obtain ⟨x, d, hxd⟩ : ∃ x d, t.name = x :: d := by
    cases h : t.name with
    | nil => exact absurd h ok.name.1
    | cons x d => exact ⟨x, d, rfl⟩
  have hx := ok.name.2 x (by rw [hxd]; exact List.mem_cons_self)
  have hx35 : x ≠ 35 := by
    intro h
    apply ok.nocomment
    rw [hxd, h]
    rfl
  unfold lineEntry
  have hc : cstr (render t ++ e) = render t ++ e := by
    apply cstr_eq
    intro c hc
    rcases List.mem_append.1 hc with h | h
    · exact (ok.line c h).1
    · rcases he c h with rfl | rfl <;> decide
  rw [hc]
  have hcom : isComment (render t ++ e) = false := by
    unfold render
    rw [hxd]
    simp only [List.cons_append, isComment, List.all_cons, hx.1, Bool.false_and, Bool.false_or]
    simp [hx35]
  rw [hcom, if_neg (by decide), strip_eq _ _ ok.line he, parse_ok t ok]
  rfl

private theorem number_ok (d : Nat) (s : List Nat) (h : Fits s) : number d s = some (if s = [] then d else value s) := by
  unfold Fits at h
  unfold number
  by_cases hs : s = []
  · rw [if_pos hs, if_pos hs]
  · rw [if_neg hs, if_neg hs, if_pos h]

/-- A line in the documented notation is understood: empty fields have their defaults,
numbers are limited, the network is masked. -/
theorem C126_line (v4 : List Nat → Option Nat) (t : Text) (ok : t.Ok) (e : List Nat) (he : ∀ c ∈ e, c = 10 ∨ c = 13)
    (hname : t.name.length ≤ 16) (h1 : Fits t.rn) (h2 : Fits t.rg) (h3 : Fits t.up) (h4 : Fits t.down) (h5 : Fits t.path)
    (net : Option (Nat × Nat)) (gw : Option Nat)
    (hnet : match t.net with
      | none => net = none
      | some (ip, len) => ∃ a, v4 ip = some a ∧ value len ≤ 32 ∧ net = some (a - a % 2 ^ (32 - value len), value len))
    (hgw : if t.gw = [] then gw = none else gw = v4 t.gw ∧ gw ≠ none) :
    lineEntry v4 (render t ++ e) =
      some ⟨t.name, decide (t.rn = [] ∨ value t.rn ≠ 0), decide (t.rg = [] ∨ value t.rg ≠ 0),
        min (value t.up) 320000000, min (value t.down) 320000000, min (value t.path) 4294967295, net, gw⟩ := by
  rw [line_fields v4 t ok e he]
  unfold entry
  simp only []
  rw [if_neg (by omega), number_ok 1 _ h1, number_ok 1 _ h2, number_ok 0 _ h3, number_ok 0 _ h4, number_ok 0 _ h5]
  simp only [Option.bind_some]
  have hz : ∀ s : List Nat, (if s = [] then 0 else value s) = value s := by
    intro s
    by_cases hs : s = []
    · rw [if_pos hs, hs]; rfl
    · rw [if_neg hs]
  have ho : ∀ s : List Nat, decide ((if s = [] then 1 else value s) ≠ 0) = decide (s = [] ∨ value s ≠ 0) := by
    intro s
    by_cases hs : s = []
    · rw [if_pos hs]; simp [hs]
    · rw [if_neg hs]; simp [hs]
  have hn : netOf v4 t.net = some net := by
    cases ht : t.net with
    | none =>
      rw [ht] at hnet
      rw [hnet]
      rfl
    | some p =>
      obtain ⟨ip, len⟩ := p
      rw [ht] at hnet
      obtain ⟨a, ha, hl, hne⟩ := hnet
      unfold netOf
      simp only []
      rw [ha, Option.bind_some, number_ok 0 _ (by unfold Fits; omega), hz, Option.bind_some, if_pos hl, hne]
      congr 3
      have := Nat.div_add_mod a (2 ^ (32 - value len))
      rw [Nat.mul_comm] at this
      omega
  have hg : gwOf v4 t.gw = some gw := by
    unfold gwOf
    by_cases hs : t.gw = []
    · rw [if_pos hs] at hgw
      rw [if_pos hs, hgw]
    · rw [if_neg hs] at hgw
      rw [if_neg hs, ← hgw.1]
      cases hx : gw with
      | none => exact absurd hx hgw.2
      | some g => rfl
  rw [hn, hg]
  simp only [Option.bind_some, Option.map_some, hz, ho]

/-- Every other line in this notation is ignored: too long a name, numbers of 64 bits or
more, networks or gateways that are not IPv4, prefix lengths above 32. -/
theorem C126_refused (v4 : List Nat → Option Nat) (t : Text) (ok : t.Ok) (e : List Nat) (he : ∀ c ∈ e, c = 10 ∨ c = 13)
    (h : 16 < t.name.length ∨ ¬ Fits t.rn ∨ ¬ Fits t.rg ∨ ¬ Fits t.up ∨ ¬ Fits t.down ∨ ¬ Fits t.path ∨
      (∃ ip len, t.net = some (ip, len) ∧ (v4 ip = none ∨ 32 < value len)) ∨ (t.gw ≠ [] ∧ v4 t.gw = none)) :
    lineEntry v4 (render t ++ e) = none := by
  rw [line_fields v4 t ok e he]
  have bad : ∀ d s, ¬ Fits s → number d s = none := by
    intro d s hs
    unfold Fits at hs
    unfold number
    rw [if_neg, if_neg hs]
    intro h0
    apply hs
    rw [h0]
    unfold value
    decide
  have none_bind : ∀ {α β : Type} (o : Option α) (f : α → Option β), (∀ a, f a = none) → o.bind f = none := by
    intro α β o f hf
    cases o with
    | none => rfl
    | some a => exact hf a
  unfold entry
  by_cases hl : 16 < t.name.length
  · rw [if_pos hl]
  rw [if_neg hl]
  simp only []
  rcases h with h | h | h | h | h | h | h | h
  · exact absurd h hl
  · rw [bad 1 _ h]; rfl
  · rw [bad 1 t.rg h]; exact none_bind _ _ (fun _ => rfl)
  · rw [bad 0 t.up h]; exact none_bind _ _ (fun _ => none_bind _ _ (fun _ => rfl))
  · rw [bad 0 t.down h]; exact none_bind _ _ (fun _ => none_bind _ _ (fun _ => none_bind _ _ (fun _ => rfl)))
  · rw [bad 0 t.path h]
    exact none_bind _ _ (fun _ => none_bind _ _ (fun _ => none_bind _ _ (fun _ => none_bind _ _ (fun _ => rfl))))
  · obtain ⟨ip, len, hn, hv⟩ := h
    have : netOf v4 t.net = none := by
      rw [hn]
      unfold netOf
      simp only []
      rcases hv with hv | hv
      · rw [hv]; rfl
      · apply none_bind
        intro a
        unfold number
        by_cases h0 : len = []
        · rw [h0] at hv
          exact absurd hv (by unfold value; decide)
        · rw [if_neg h0]
          by_cases h1 : value len < 18446744073709551616
          · rw [if_pos h1, Option.bind_some, if_neg (by omega)]
          · rw [if_neg h1]; rfl
    rw [this]
    exact none_bind _ _ (fun _ => none_bind _ _ (fun _ => none_bind _ _ (fun _ => none_bind _ _ (fun _ =>
      none_bind _ _ (fun _ => rfl)))))
  · have : gwOf v4 t.gw = none := by
      unfold gwOf
      rw [if_neg h.1, h.2]
      rfl
    rw [this]
    exact none_bind _ _ (fun _ => none_bind _ _ (fun _ => none_bind _ _ (fun _ => none_bind _ _ (fun _ =>
      none_bind _ _ (fun _ => none_bind _ _ (fun _ => rfl))))))

private theorem fgets_line (n : Nat) (b t : List Nat) (hb : ∀ c ∈ b, c ≠ 10) (hl : b.length < n) :
    fgets n (b ++ 10 :: t) = (b ++ [10], t) := by
  induction b generalizing n with
  | nil =>
    cases n with
    | zero => exact absurd hl (Nat.not_lt_zero _)
    | succ n => rfl
  | cons x b ih =>
    cases n with
    | zero => exact absurd hl (Nat.not_lt_zero _)
    | succ n =>
      rw [List.cons_append]
      unfold fgets
      rw [if_neg (hb x List.mem_cons_self), ih n (fun c hc => hb c (List.mem_cons_of_mem _ hc)) (by simp at hl; omega)]
      rfl

private theorem fgets_long (n : Nat) (b t : List Nat) (hb : ∀ c ∈ b, c ≠ 10) (hl : b.length = n) :
    fgets n (b ++ t) = (b, t) := by
  induction b generalizing n with
  | nil =>
    subst hl
    rfl
  | cons x b ih =>
    subst hl
    rw [List.cons_append, List.length_cons]
    unfold fgets
    rw [if_neg (hb x List.mem_cons_self), ih b.length (fun c hc => hb c (List.mem_cons_of_mem _ hc)) rfl]

/-- The characters: white space is space, tab and the line and page ends, a number has
digits 0 to 9, an address digits, full stops, colons (and by a slip backslashes), and a
name is without white space and equals signs. -/
theorem C126_classes (c : Nat) :
    (isSpace c = true ↔ c ∈ [9, 10, 11, 12, 13, 32]) ∧
    (isDigit c = true ↔ ∃ d, d < 10 ∧ c = 48 + d) ∧
    (isAddr c = true ↔ (∃ d, d < 10 ∧ c = 48 + d) ∨ c ∈ [46, 58, 92]) ∧
    (isName c = true ↔ c ∉ [9, 10, 11, 12, 13, 32, 61]) := by
  have hs : isSpace c = true ↔ c ∈ [9, 10, 11, 12, 13, 32] := by
    simp only [isSpace, Bool.or_eq_true, Bool.and_eq_true, beq_iff_eq, decide_eq_true_eq, List.mem_cons, List.not_mem_nil, or_false]
    omega
  have hd : isDigit c = true ↔ ∃ d, d < 10 ∧ c = 48 + d := by
    simp only [isDigit, Bool.and_eq_true, decide_eq_true_eq]
    constructor
    · intro h; exact ⟨c - 48, by omega, by omega⟩
    · rintro ⟨d, h1, h2⟩; omega
  refine ⟨hs, hd, ?_, ?_⟩
  · unfold isAddr
    rw [Bool.or_eq_true, Bool.or_eq_true, Bool.or_eq_true, hd]
    simp only [beq_iff_eq, List.mem_cons, List.not_mem_nil, or_false, or_assoc]
  · have : isName c = true ↔ ¬ isSpace c = true ∧ c ≠ 61 := by
      unfold isName
      cases isSpace c <;> simp
    rw [this, hs]
    simp only [List.mem_cons, List.not_mem_nil, or_false]
    omega

/-- Without a usable entry the interface needs a network and a gateway and has neither,
nor a bandwidth. -/
theorem C126_none (E : Env) (n : List Nat) (up : Bool) (es : List Entry)
    (h : ∀ e ∈ es, e.name = n → e.uk = 0 ∨ e.dk = 0) :
    paramsOf E n up es = ⟨true, true, 0, 0, 0, none, none, E.cost up 0 0 0⟩ := by
  unfold paramsOf
  cases hl : lastFor n es with
  | none => rfl
  | some e =>
    unfold lastFor at hl
    have h1 := List.mem_of_find?_eq_some hl
    have h2 := List.find?_some hl
    simp only []
    rw [if_pos (h e (List.mem_reverse.1 h1) (of_decide_eq_true h2))]
    rfl

/-- The numeral of a number. -/
def numeral (n : Nat) : List Nat := if n < 10 then [48 + n] else numeral (n / 10) ++ [48 + n % 10]

/-- A numeral, with any number of zeros before it, is read as its number up to 2^64, and
refused beyond. -/
theorem C126_value (d n z : Nat) :
    number d (List.replicate z 48 ++ numeral n) = if n < 18446744073709551616 then some n else none := by
  have hv : ∀ n, value (numeral n) = n := by
    intro n
    induction n using Nat.strongRecOn with
    | _ n ih =>
      unfold numeral
      by_cases h : n < 10
      · rw [if_pos h]; unfold value; simp only [List.foldl_cons, List.foldl_nil]; omega
      · rw [if_neg h]
        have := ih (n / 10) (by omega)
        unfold value at this ⊢
        rw [List.foldl_append, this]
        simp only [List.foldl_cons, List.foldl_nil]
        omega
  have hz : ∀ z, value (List.replicate z 48 ++ numeral n) = value (numeral n) := by
    intro z
    induction z with
    | zero => rfl
    | succ z ih => rw [← ih]; rfl
  have hne : List.replicate z 48 ++ numeral n ≠ [] := by
    unfold numeral
    split <;> simp
  unfold number
  rw [if_neg hne, hz, hv]

/-- A file whose lines have at most 254 characters is read line by line. -/
theorem C126_lines_partial (bs : List (List Nat)) (h : ∀ b ∈ bs, (∀ c ∈ b, c ≠ 10) ∧ b.length ≤ 254) (fuel : Nat)
    (hf : bs.length ≤ fuel) : lines fuel (bs.flatMap (fun b => b ++ [10])) = bs.map (fun b => b ++ [10]) := by
  induction bs generalizing fuel with
  | nil =>
    cases fuel with
    | zero => rfl
    | succ f => rfl
  | cons b bs ih =>
    cases fuel with
    | zero => exact absurd hf (by simp)
    | succ f =>
      have hb := h b List.mem_cons_self
      rw [List.flatMap_cons, List.map_cons]
      unfold lines
      rw [if_neg (by simp), List.append_assoc, List.singleton_append, fgets_line 255 b _ hb.1 (by omega)]
      simp only []
      rw [ih (fun x hx => h x (List.mem_cons_of_mem _ hx)) f (by simp at hf; omega)]

/-- What follows the 255th character of a line is read as a line of its own, even if the
line is a comment. -/
theorem C126_long_negation (b t : List Nat) (hb : ∀ c ∈ b, c ≠ 10) (hl : b.length = 254) (ht : t ≠ []) (fuel : Nat) :
    lines (fuel + 2) (35 :: b ++ t) = (35 :: b) :: (fgets 255 t).1 :: lines fuel (fgets 255 t).2 ∧
    (∀ v4, lineEntry v4 (35 :: b) = none) := by
  constructor
  · have hg : fgets 255 (35 :: b ++ t) = (35 :: b, t) := by
      apply fgets_long
      · intro c hc
        rcases List.mem_cons.1 hc with rfl | hc
        · decide
        · exact hb c hc
      · rw [List.length_cons, hl]
    have hstep : ∀ n u, u ≠ [] → lines (n + 1) u = (fgets 255 u).1 :: lines n (fgets 255 u).2 := by
      intro n u hu
      show (if u = [] then [] else _) = _
      rw [if_neg hu]
    rw [hstep (fuel + 1) _ (by simp), hg]
    simp only []
    rw [hstep fuel t ht]
  · intro v4
    unfold lineEntry
    have : cstr (35 :: b) = 35 :: cstr b := rfl
    rw [this, if_pos]
    unfold isComment
    simp

/-- An entry that is indented is taken for a comment, although the notation allows
leading white space. -/
theorem C126_indent_negation (v4 : List Nat → Option Nat) (c : Nat) (s : List Nat) (hc : isSpace c = true) (h0 : c ≠ 0) :
    lineEntry v4 (c :: s) = none ∧ parse (c :: s) = parse s := by
  constructor
  · unfold lineEntry
    have : cstr (c :: s) = c :: cstr s := by
      unfold cstr
      rw [List.takeWhile_cons_of_pos (by simp [h0])]
    rw [this, if_pos]
    unfold isComment
    simp [hc]
  · have : skip (c :: s) = skip s := List.dropWhile_cons_of_pos hc
    unfold parse
    rw [this]

/-- "a =,1,5,7,8,1/2,3". -/
example : Text.Ok ⟨[97], [], [49], [53], [55], [56], some ([49], [50]), [51], 3, fun k => if k = 0 then [32] else []⟩ := by
  refine ⟨⟨by decide, by decide⟩, by decide, by decide, by decide, by decide, by decide, by decide, ?_, by decide, ?_,
    by decide, by decide, by decide, by decide⟩
  · intro p hp
    cases hp
    decide
  · intro k c hc
    by_cases hk : k = 0
    · simp only [hk, if_pos] at hc
      revert hc c
      decide
    · simp only [if_neg hk] at hc
      cases hc

/-- "a = 1,,5, 7 ,2,10.1.2.3/8,9" as an example; the address is whatever `inet_pton` says. -/
example : lineEntry (fun s => if s = [57] then some 9 else some 167838211)
    [97, 32, 61, 32, 49, 44, 44, 53, 44, 32, 55, 32, 44, 50, 44, 49, 48, 46, 49, 46, 50, 46, 51, 47, 56, 44, 57, 10] =
    some ⟨[97], true, true, 5, 7, 2, some (167772160, 8), some 9⟩ := by decide +kernel

/-! ### Polling -/

private theorem finish_facts (E : Env) (i : Iface) :
    (finish E i).name = i.name ∧ (finish E i).up = i.up ∧ (finish E i).prev = i.prev := by
  unfold finish flags absent
  split <;> exact ⟨rfl, rfl, rfl⟩

private theorem poll_missing (E : Env) (l : List Iface) :
    ((l.map begin).map (finish E)).map (fun i => (i.name, i.up, i.prev, i.cur)) =
      l.map (fun i => (i.name, i.up, i.cur, paramsOf E i.name i.up [])) := by
  rw [List.map_map, List.map_map]
  apply List.map_congr_left
  intro i _
  rfl

private def view (i : Iface) : List Nat × Bool × Bw := (i.name, i.up, i.cur)

private def wantedView (E : Env) (es : List Entry) (p : List Nat × Bool) : List Nat × Bool × Bw :=
  (p.1, p.2, paramsOf E p.1 p.2 es)

private theorem view_names (E : Env) (es : List Entry) (ifs : List Iface) (l : List (List Nat × Bool))
    (h : ifs.map view = l.map (wantedView E es)) : ifs.map (fun i => i.name) = l.map (fun p => p.1) := by
  have := congrArg (List.map (fun v : List Nat × Bool × Bw => v.1)) h
  rw [List.map_map, List.map_map] at this
  exact this

private theorem view_pairs (E : Env) (es : List Entry) (ifs : List Iface) (l : List (List Nat × Bool))
    (h : ifs.map view = l.map (wantedView E es)) : ifs.map (fun i => (i.name, i.up)) = l := by
  have := congrArg (List.map (fun v : List Nat × Bool × Bw => (v.1, v.2.1))) h
  rw [List.map_map, List.map_map] at this
  have h2 : ((fun v : List Nat × Bool × Bw => (v.1, v.2.1)) ∘ wantedView E es) = fun p => p := by
    funext p
    rfl
  rw [h2, List.map_id'] at this
  exact this

private theorem view_read (E : Env) (c : List Nat) (es : List Entry) (ifs : List Iface) (l : List (List Nat × Bool))
    (hn : (l.map (fun p => p.1)).Nodup) (h : ifs.map view = l.map (wantedView E es)) :
    (readFile E c ifs).map view = l.map (wantedView E (entriesOf E c)) := by
  have hr := (C126_read E c ifs (by rw [view_names E es ifs l h]; exact hn)).1
  have := congrArg (List.map (fun v : List Nat × Bool × Bw × Bw => (v.1, v.2.1, v.2.2.2))) hr
  rw [List.map_map, List.map_map] at this
  have h1 : (fun v : List Nat × Bool × Bw × Bw => (v.1, v.2.1, v.2.2.2)) ∘ (fun i : Iface => (i.name, i.up, i.prev, i.cur)) = view := rfl
  rw [h1] at this
  rw [this, ← view_pairs E es ifs l h, List.map_map]
  rfl

private theorem view_missing (E : Env) (es : List Entry) (ifs : List Iface) (l : List (List Nat × Bool))
    (h : ifs.map view = l.map (wantedView E es)) :
    ((ifs.map begin).map (finish E)).map view = l.map (wantedView E []) := by
  have := congrArg (List.map (fun v : List Nat × Bool × Bw × Bw => (v.1, v.2.1, v.2.2.2))) (poll_missing E ifs)
  rw [List.map_map, List.map_map] at this
  have h1 : (fun v : List Nat × Bool × Bw × Bw => (v.1, v.2.1, v.2.2.2)) ∘ (fun i : Iface => (i.name, i.up, i.prev, i.cur)) = view := rfl
  rw [h1] at this
  rw [List.map_map (f := finish E) (g := view)]
  refine Eq.trans this ?_
  rw [← view_pairs E es ifs l h, List.map_map, List.map_map]
  rfl

private theorem params_up (E : Env) (n : List Nat) (a b : Bool) (es : List Entry) :
    { paramsOf E n a es with cost := E.cost b (paramsOf E n a es).path (paramsOf E n a es).uk (paramsOf E n a es).dk } =
      paramsOf E n b es := by
  unfold paramsOf
  cases lastFor n es with
  | none => rfl
  | some e =>
    simp only []
    by_cases he : e.uk = 0 ∨ e.dk = 0
    · rw [if_pos he, if_pos he]; rfl
    · rw [if_neg he, if_neg he]

private theorem view_up (E : Env) (n : List Nat) (b : Bool) (es : List Entry) : ∀ (ifs : List Iface) (l : List (List Nat × Bool)),
    ifs.map view = l.map (wantedView E es) →
    (ifs.map (setUp E n b)).map view = (l.map (fun p => if p.1 = n then (p.1, b) else p)).map (wantedView E es) := by
  intro ifs
  induction ifs with
  | nil =>
    intro l h
    cases l with
    | nil => rfl
    | cons p l => cases h
  | cons i ifs ih =>
    intro l h
    cases l with
    | nil => cases h
    | cons p l =>
      rw [List.map_cons, List.map_cons] at h
      injection h with h1 h2
      rw [List.map_cons, List.map_cons, List.map_cons, List.map_cons, ih l h2]
      congr 1
      have e1 : i.name = p.1 := congrArg (fun v => v.1) h1
      have e2 : i.up = p.2 := congrArg (fun v => v.2.1) h1
      have e3 : i.cur = paramsOf E p.1 p.2 es := congrArg (fun v => v.2.2) h1
      unfold setUp
      by_cases hn : p.1 = n
      · rw [if_pos hn]
        by_cases hb : i.up = b
        · rw [if_neg (fun h => h.2 hb)]
          unfold view wantedView
          rw [e1, e2, e3, ← hb, e2]
        · rw [if_pos ⟨e1.trans hn, hb⟩]
          unfold view wantedView
          simp only []
          rw [e1, e3, params_up]
      · rw [if_neg hn, if_neg (fun h => hn (e1.symm.trans h.1))]
        exact h1

/-- At every moment the interfaces have the parameters that the file gave at the last
poll, and the costs that belong to them and to the state of the interface, provided that
the time of modification tells the contents of the file. -/
theorem C126_poll_partial (E : Env) (l : List (List Nat × Bool)) (hn : (l.map (fun p => p.1)).Nodup) (file : Nat → List Nat)
    (evs : List Ev) (hf : ∀ t c, Ev.poll (some (t, c)) ∈ evs → t ≠ 0 ∧ c = file t) :
    (evs.foldl (step E) (start E l)).ifs.map (fun i => (i.name, i.up, i.cur)) =
      (upsAfter l evs).map (fun p => (p.1, p.2, paramsOf E p.1 p.2 (entriesAfter E evs))) := by
  have key : ∀ (evs : List Ev) (s : St) (l : List (List Nat × Bool)) (es : List Entry),
      (∀ t c, Ev.poll (some (t, c)) ∈ evs → t ≠ 0 ∧ c = file t) → (l.map (fun p => p.1)).Nodup →
      s.ifs.map view = l.map (wantedView E es) → (s.stamp ≠ 0 → es = entriesOf E (file s.stamp)) →
      (evs.foldl (step E) s).ifs.map view = (upsAfter l evs).map (wantedView E (evs.foldl (fun es ev => match ev with
        | .poll none => []
        | .poll (some (_, c)) => entriesOf E c
        | .link _ _ => es) es)) := by
    intro evs
    induction evs with
    | nil => intro s l es _ _ h _; exact h
    | cons ev evs ih =>
      intro s l es hf hn h hs
      have hf' : ∀ t c, Ev.poll (some (t, c)) ∈ evs → t ≠ 0 ∧ c = file t :=
        fun t c hm => hf t c (List.mem_cons_of_mem _ hm)
      cases ev with
      | link n b =>
        have hn' : ((l.map (fun p => if p.1 = n then (p.1, b) else p)).map (fun p => p.1)).Nodup := by
          rw [List.map_map]
          have : ((fun p : List Nat × Bool => p.1) ∘ fun p => if p.1 = n then (p.1, b) else p) = fun p => p.1 := by
            funext p
            show (if p.1 = n then (p.1, b) else p).1 = p.1
            split <;> rfl
          rw [this]
          exact hn
        exact ih _ _ es hf' hn' (view_up E n b es s.ifs l h) hs
      | poll f =>
        cases f with
        | none =>
          exact ih _ l [] hf' hn (view_missing E es s.ifs l h) (fun h0 => absurd rfl h0)
        | some tc =>
          obtain ⟨t, c⟩ := tc
          obtain ⟨ht, hc⟩ := hf t c List.mem_cons_self
          have hstep : step E s (.poll (some (t, c))) = if t = s.stamp then s else ⟨t, readFile E c s.ifs⟩ := by
            show (poll E s (some (t, c))).1 = _
            unfold poll
            simp only []
            split <;> rfl
          rw [List.foldl_cons, hstep]
          by_cases hst : t = s.stamp
          · rw [if_pos hst]
            have hes : es = entriesOf E c := by rw [hs (by rw [← hst]; exact ht), ← hst, ← hc]
            have := ih s l es hf' hn h hs
            rw [hes] at this
            exact this
          · rw [if_neg hst]
            exact ih _ l (entriesOf E c) hf' hn (view_read E c es s.ifs l hn h) (fun _ => by rw [hc])
  apply key evs (start E l) l [] hf hn
  · unfold start
    rw [List.map_map]
    rfl
  · intro h0
    exact absurd rfl h0

/-- Two writes with the same time of modification, and a file of the time 0. -/
theorem C126_stamp_negation (E : Env) (s : St) (c : List Nat) :
    poll E s (some (s.stamp, c)) = (s, false) ∧ poll E (start E []) (some (0, c)) = (start E [], false) := by
  constructor
  · unfold poll
    simp only [if_pos]
  · rfl

/-- The caller is told exactly if costs, network or gateway of an interface change. -/
theorem C126_notice_partial (E : Env) (s : St) (hn : (s.ifs.map (fun i => i.name)).Nodup) (t : Nat) (c : List Nat)
    (ht : t ≠ s.stamp) :
    (poll E s (some (t, c))).2 = true ↔ ∃ i ∈ s.ifs, Differs i.cur (paramsOf E i.name i.up (entriesOf E c)) := by
  have hp : (poll E s (some (t, c))).2 = (readFile E c s.ifs).any (fun i => i.changed) := by
    unfold poll
    simp only []
    rw [if_neg ht]
  obtain ⟨hm, hfl⟩ := C126_read E c s.ifs hn
  have hch : ∀ i ∈ readFile E c s.ifs, i.changed = true ↔ Differs i.prev i.cur := by
    intro i hi
    obtain ⟨h1, h2, h3, h4⟩ := hfl i hi
    rw [h4, h1, h2, h3]
    rfl
  rw [hp, List.any_eq_true]
  have fwd : ∀ (r m : List Iface) (es : List Entry),
      r.map (fun i => (i.name, i.up, i.prev, i.cur)) = m.map (fun i => (i.name, i.up, i.cur, paramsOf E i.name i.up es)) →
      ((∃ i ∈ r, Differs i.prev i.cur) ↔ ∃ i ∈ m, Differs i.cur (paramsOf E i.name i.up es)) := by
    intro r
    induction r with
    | nil =>
      intro m es h
      cases m with
      | nil => simp
      | cons a m => cases h
    | cons a r ih =>
      intro m es h
      cases m with
      | nil => cases h
      | cons b m =>
        rw [List.map_cons, List.map_cons] at h
        injection h with h1 h2
        have e1 : a.prev = b.cur := congrArg (fun v => v.2.2.1) h1
        have e2 : a.cur = paramsOf E b.name b.up es := congrArg (fun v => v.2.2.2) h1
        simp only [List.mem_cons, exists_eq_or_imp, e1, e2, ih m es h2]
  rw [← fwd _ _ _ hm]
  constructor
  · rintro ⟨i, hi, hc⟩; exact ⟨i, hi, (hch i hi).1 hc⟩
  · rintro ⟨i, hi, hc⟩; exact ⟨i, hi, (hch i hi).2 hc⟩

/-- The costs with the default weights and a divider. -/
def envOf (divider : Nat) : Env :=
  ⟨fun up p u d => (GwCost.weigh ⟨divider, 2560, 1, 1, 1⟩ up p u d).getD 0, fun _ => none⟩

private theorem cost_zero (up : Bool) (p u d : Nat) :
    (envOf 0).cost up p u d =
      if up = false then GwCost.int64Max else if GwCost.classic p ≤ GwCost.int64Max then GwCost.classic p else 0 := by
  have h0 : (envOf 0).cost up p u d = (GwCost.weigh ⟨0, 2560, 1, 1, 1⟩ up p u d).getD 0 := rfl
  rw [h0]
  unfold GwCost.weigh
  cases up with
  | false => rw [if_pos rfl, if_pos rfl]; rfl
  | true =>
    rw [if_neg (show ¬ (true = false) by decide), if_neg (show ¬ (true = false) by decide), if_pos rfl]
    by_cases h : GwCost.classic p ≤ GwCost.int64Max
    · rw [if_pos h, if_pos h]; rfl
    · rw [if_neg h, if_neg h]; rfl

/-- A change of the bandwidth may go unnoticed: with the default divider 0 every one,
otherwise for example if the directions are swapped ("a=,,1,2" becomes "a=,,2,1"). -/
theorem C126_notice_negation (s : St) (hs : s = (poll (envOf 1) (start (envOf 1) [([97], true)])
      (some (1, [97, 61, 44, 44, 49, 44, 50, 10]))).1) :
    (poll (envOf 1) s (some (2, [97, 61, 44, 44, 50, 44, 49, 10]))).2 = false ∧
    s.ifs.map (fun i => (i.cur.uk, i.cur.dk)) = [(1, 2)] ∧
    (poll (envOf 1) s (some (2, [97, 61, 44, 44, 50, 44, 49, 10]))).1.ifs.map (fun i => (i.cur.uk, i.cur.dk)) = [(2, 1)] ∧
    (∀ up p u d u' d', (envOf 0).cost up p u d = (envOf 0).cost up p u' d') := by
  subst hs
  refine ⟨by decide +kernel, by decide +kernel, by decide +kernel, ?_⟩
  intro up p u d u' d'
  rw [cost_zero, cost_zero]

/-- With the default divider, an interface that is up and has no entry in the file costs
nothing, so it is preferred to the ones that have. -/
theorem C126_classic_negation (path uk dk : Nat) (hp : 1 ≤ path) (hq : path ≤ 4294967295) :
    (clear (envOf 0) true).cost = 0 ∧
    Egress.determine [⟨0, 3, true, (envOf 0).cost true path uk dk, none, true⟩,
      ⟨1, 4, true, (clear (envOf 0) true).cost, none, true⟩] = some ⟨1, 4, true, 0, none, true⟩ := by
  have hc : (clear (envOf 0) true).cost = 0 := by
    show (envOf 0).cost true 0 0 0 = 0
    rw [cost_zero]
    decide
  have hcost : (envOf 0).cost true path uk dk = path * 2147483648 := by
    rw [cost_zero, if_neg (by decide), if_pos (by unfold GwCost.int64Max GwCost.classic; omega)]
    rfl
  refine ⟨hc, ?_⟩
  rw [hc, hcost]
  obtain ⟨k, hk⟩ : ∃ k, k = path * 2147483648 := ⟨_, rfl⟩
  have hk0 : 0 < k := by omega
  rw [← hk]
  have hb : Egress.better ⟨0, 3, true, k, none, true⟩ ⟨1, 4, true, 0, none, true⟩ = ⟨1, 4, true, 0, none, true⟩ := by
    unfold Egress.better
    rw [if_pos ⟨rfl, hk0, rfl⟩]
  have hf : List.foldl Egress.better ⟨0, 3, true, k, none, true⟩ [⟨1, 4, true, 0, none, true⟩] = ⟨1, 4, true, 0, none, true⟩ := hb
  simp only [Egress.determine, hf]
  rw [if_neg (by simp [Egress.int64Max])]

end Verif.EgFile
