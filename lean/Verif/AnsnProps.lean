import Verif.AnsnModel
import Verif.HelloProps

/-!
# C84, C85, C86: MPR selectors, the sequence number of the advertised neighbours, and empty TC messages
-/
namespace Verif.Ansn

open Verif.SchedTime

/-! ## C84: who selects this host -/

/-- The announcements of an address on symmetric links, in the order of the message: the neighbour type of each. -/
def symListings (v6 : Bool) (me : List Nat) (bs : List Hello.Raw) : List Nat :=
  bs.flatMap (fun b => if b.code % 4 = 2 then (b.items.filter (fun x => x.take (BuildMsg.ipsize v6) == me)).map (fun _ => b.code / 4 % 4) else [])

private theorem land3 (c : Nat) : c &&& 3 = c % 4 := by
  have := Nat.and_two_pow_sub_one_eq_mod c 2
  simpa using this

private theorem status_bits (c : Nat) : (c &&& 12) >>> 2 = c / 4 % 4 := by
  have h : (c &&& 12) >>> 2 = (c >>> 2) &&& (12 >>> 2) := Nat.shiftRight_and_distrib
  rw [h, show (12 >>> 2) = 3 from rfl, land3, Nat.shiftRight_eq_div_pow]

private theorem find_reverse {α : Type} (p : α → Bool) (l : List α) : l.reverse.find? p = (l.filter p).getLast? := by
  rw [← List.head?_filter, List.filter_reverse, List.head?_reverse]

/-- find in the list after the removal of doubles -/
private theorem find_cull (me : List Nat) (ns : List Hello.Nb) :
    (Hello.cull ns).find? (fun n => n.link != 0 && n.addr == me) = ns.find? (fun n => n.link != 0 && n.addr == me) := by
  unfold Hello.cull
  simp only []
  rw [List.find?_append, List.find?_filter]
  have h2 : ∀ us : List Hello.Nb, (∀ x ∈ us, x.link = 0) → us.find? (fun n => n.link != 0 && n.addr == me) = none := by
    intro us h
    rw [List.find?_eq_none]
    intro x hx
    simp [h x hx]
  have h3 : ∀ (others us : List Hello.Nb), (∀ x ∈ us, x.link = 0) →
      ∀ x ∈ others.foldl (fun u n => u.filter (fun x => x.addr != n.addr)) us, x.link = 0 := by
    intro others
    induction others with
    | nil => intro us h; exact h
    | cons o os ih => intro us h; exact ih _ (fun x hx => h x (List.mem_filter.1 hx).1)
  rw [h2 _ (h3 _ _ (fun x hx => by simpa using (List.mem_filter.1 hx).2)), Option.or_none]
  congr 1
  funext n
  cases n.link != 0
  · simp
  · simp only [Bool.true_and, true_and]
    exact Bool.decide_eq_true

private theorem filter_seen (v6 lq : Bool) (me : List Nat) (ty : Nat) (hty : ty ≠ 0) (bs : List Hello.Raw) :
    (Hello.seenRaw v6 lq (bs.filter (fun b => b.code &&& 3 == ty))).filter (fun n => n.link != 0 && n.addr == me) =
      (Hello.seenRaw v6 lq (bs.filter (fun b => b.code &&& 3 == ty))).filter (fun n => n.addr == me) := by
  apply List.filter_congr
  intro n hn
  obtain ⟨b, hb, hx⟩ := List.mem_flatMap.1 hn
  obtain ⟨x, -, rfl⟩ := List.mem_map.1 hx
  have : (b.code &&& 3) = ty := by simpa using (List.mem_filter.1 hb).2
  have h2 : (Hello.ofItem v6 lq b.code x).link = ty := this
  simp [h2, hty]

private theorem sym_statuses (v6 lq : Bool) (me : List Nat) (bs : List Hello.Raw) :
    ((Hello.seenRaw v6 lq (bs.filter (fun b => b.code &&& 3 == 2))).filter (fun n => n.addr == me)).map Hello.Nb.status =
      symListings v6 me bs := by
  induction bs with
  | nil => rfl
  | cons b bs ih =>
    unfold Hello.seenRaw symListings at ih ⊢
    rw [List.flatMap_cons, ← ih]
    by_cases h : b.code % 4 = 2
    · rw [List.filter_cons_of_pos (by rw [land3, h]; rfl), List.flatMap_cons, List.filter_append, List.map_append, if_pos h]
      congr 1
      rw [List.filter_map, List.map_map]
      apply List.map_congr_left
      intro x _
      exact status_bits b.code
    · rw [List.filter_cons_of_neg (by rw [land3]; simpa using h), if_neg h, List.nil_append]

/-- **C84** a HELLO message selects this host exactly if the last of its announcements of the receiving interface on a symmetric
link says MPR.  Announcements of other link types do not count. -/
theorem C84_selected (v6 : Bool) (m : List Nat) (bs : List Hello.Raw) (h : Hello.Tiled v6 m bs) (me : List Nat) :
    ∃ p, Hello.parse v6 m = .ok p ∧ (mprStatus me p.nbs = true ↔ (symListings v6 me bs).getLast? = some 2) := by
  obtain ⟨h1, h2, h3, h4⟩ := h
  unfold Hello.parse
  rw [if_neg (by omega), if_neg (by omega), h3, Hello.passes_raw v6 _ bs h4 Hello.linkOrder []]
  refine ⟨_, rfl, ?_⟩
  unfold mprStatus
  simp only []
  rw [find_cull, List.append_nil, find_reverse]
  generalize (m.getD 0 0 == 201) = lq
  have hsplit : (Hello.seenRaw v6 lq (Hello.linkOrder.flatMap (fun ty => bs.filter (fun b => b.code &&& 3 == ty)))).filter (fun n => n.link != 0 && n.addr == me) =
      ((Hello.seenRaw v6 lq (bs.filter (fun b => b.code &&& 3 == 3))).filter (fun n => n.addr == me) ++
       (Hello.seenRaw v6 lq (bs.filter (fun b => b.code &&& 3 == 1))).filter (fun n => n.addr == me)) ++
      (Hello.seenRaw v6 lq (bs.filter (fun b => b.code &&& 3 == 2))).filter (fun n => n.addr == me) := by
    rw [← filter_seen v6 lq me 3 (by decide), ← filter_seen v6 lq me 1 (by decide), ← filter_seen v6 lq me 2 (by decide)]
    have e : Hello.seenRaw v6 lq (Hello.linkOrder.flatMap (fun ty => bs.filter (fun b => b.code &&& 3 == ty))) =
        Hello.seenRaw v6 lq (bs.filter (fun b => b.code &&& 3 == 0)) ++ (Hello.seenRaw v6 lq (bs.filter (fun b => b.code &&& 3 == 3)) ++
          (Hello.seenRaw v6 lq (bs.filter (fun b => b.code &&& 3 == 1)) ++ Hello.seenRaw v6 lq (bs.filter (fun b => b.code &&& 3 == 2)))) := by
      unfold Hello.seenRaw Hello.linkOrder
      simp [List.flatMap_append]
    rw [e, List.filter_append, List.filter_append, List.filter_append]
    have z : (Hello.seenRaw v6 lq (bs.filter (fun b => b.code &&& 3 == 0))).filter (fun n => n.link != 0 && n.addr == me) = [] := by
      rw [List.filter_eq_nil_iff]
      intro n hn
      obtain ⟨b, hb, hx⟩ := List.mem_flatMap.1 hn
      obtain ⟨x, -, rfl⟩ := List.mem_map.1 hx
      have : (b.code &&& 3) = 0 := by simpa using (List.mem_filter.1 hb).2
      have h2 : (Hello.ofItem v6 lq b.code x).link = 0 := this
      simp [h2]
    rw [z, List.nil_append, List.append_assoc]
  rw [hsplit, ← sym_statuses v6 lq me bs]
  have hlow : ∀ n ∈ (Hello.seenRaw v6 lq (bs.filter (fun b => b.code &&& 3 == 3))).filter (fun n => n.addr == me) ++
       (Hello.seenRaw v6 lq (bs.filter (fun b => b.code &&& 3 == 1))).filter (fun n => n.addr == me), n.link ≠ 2 := by
    intro n hn
    rcases List.mem_append.1 hn with hn | hn <;>
    · obtain ⟨b, hb, hx⟩ := List.mem_flatMap.1 (List.mem_filter.1 hn).1
      obtain ⟨x, -, rfl⟩ := List.mem_map.1 hx
      have h5 := (List.mem_filter.1 hb).2
      simp only [beq_iff_eq] at h5
      show b.code &&& 3 ≠ 2
      omega
  have hsym : ∀ n ∈ (Hello.seenRaw v6 lq (bs.filter (fun b => b.code &&& 3 == 2))).filter (fun n => n.addr == me), n.link = 2 := by
    intro n hn
    obtain ⟨b, hb, hx⟩ := List.mem_flatMap.1 (List.mem_filter.1 hn).1
    obtain ⟨x, -, rfl⟩ := List.mem_map.1 hx
    have h5 := (List.mem_filter.1 hb).2
    simp only [beq_iff_eq] at h5
    exact h5
  generalize (Hello.seenRaw v6 lq (bs.filter (fun b => b.code &&& 3 == 2))).filter (fun n => n.addr == me) = L at hsym
  generalize (Hello.seenRaw v6 lq (bs.filter (fun b => b.code &&& 3 == 3))).filter (fun n => n.addr == me) ++
       (Hello.seenRaw v6 lq (bs.filter (fun b => b.code &&& 3 == 1))).filter (fun n => n.addr == me) = K at hlow
  rw [List.getLast?_append, List.getLast?_map]
  cases hL : L.getLast? with
  | none =>
    rw [Option.none_or]
    cases hK : K.getLast? with
    | none => simp
    | some n =>
      have := hlow n (List.mem_of_getLast? hK)
      simp [this]
  | some n =>
    have := hsym n (List.mem_of_getLast? hL)
    simp [this]

/-- announced as a lost link and MPR first, then as a symmetric MPR: selected -/
example : (match Hello.parse false [201, 0x86, 0, 40, 10, 9, 9, 9, 1, 0, 0, 7, 0, 0, 5, 3, 10, 0, 0, 12, 10, 0, 0, 1, 255, 200, 0, 0, 7, 0, 0, 12, 10, 0, 0, 1, 1, 2, 0, 0] with
    | .ok p => mprStatus [10, 0, 0, 1] p.nbs
    | _ => false) = true := by decide

example : symListings false [10, 0, 0, 1] [⟨10, 0, [[10, 0, 0, 1, 255, 200, 0, 0]]⟩, ⟨7, 0, [[10, 0, 0, 1, 1, 2, 0, 0]]⟩] = [2] := by decide

/-! ### The set -/

/-- The event ends the entry of `a` or sets its time. -/
def About (a : Nat) : Ev → Prop
  | .select b _ _ => b = a
  | .expire b => b = a
  | _ => False

private theorem mem_refresh {a now rel : Nat} : ∀ {l : List (Nat × Option Nat)}, (l.map Prod.fst).Nodup → (∃ t, (a, t) ∈ l) →
    ∀ x, x ∈ refresh a now rel l ↔ (x.1 ≠ a ∧ x ∈ l) ∨ x = (a, timer now rel) := by
  intro l
  induction l with
  | nil => rintro - ⟨t, h⟩; cases h
  | cons y l ih =>
    intro hn ht x
    rw [List.map_cons, List.nodup_cons] at hn
    unfold refresh
    by_cases hy : y.1 = a
    · rw [if_pos hy]
      constructor
      · intro hx
        rcases List.mem_cons.1 hx with hx | hx
        · right; rw [hx, hy]
        · refine Or.inl ⟨?_, List.mem_cons_of_mem _ hx⟩
          intro hc
          exact hn.1 (List.mem_map.2 ⟨x, hx, hc.trans hy.symm⟩)
      · rintro (⟨h1, h2⟩ | rfl)
        · rcases List.mem_cons.1 h2 with rfl | h2
          · exact absurd hy h1
          · exact List.mem_cons_of_mem _ h2
        · rw [hy]; exact List.mem_cons_self ..
    · rw [if_neg hy]
      have ht' : ∃ t, (a, t) ∈ l := by
        obtain ⟨t, ht⟩ := ht
        rcases List.mem_cons.1 ht with ht | ht
        · exact absurd (by rw [← ht]) hy
        · exact ⟨t, ht⟩
      rw [List.mem_cons, ih hn.2 ht' x, List.mem_cons]
      constructor
      · rintro (rfl | ⟨h1, h2⟩ | h)
        · exact Or.inl ⟨hy, Or.inl rfl⟩
        · exact Or.inl ⟨h1, Or.inr h2⟩
        · exact Or.inr h
      · rintro (⟨h1, rfl | h2⟩ | h)
        · exact Or.inl rfl
        · exact Or.inr (Or.inl ⟨h1, h2⟩)
        · exact Or.inr (Or.inr h)

private theorem refresh_fst (a now rel : Nat) (l : List (Nat × Option Nat)) : (refresh a now rel l).map Prod.fst = l.map Prod.fst := by
  induction l with
  | nil => rfl
  | cons y l ih =>
    unfold refresh
    by_cases hy : y.1 = a
    · rw [if_pos hy]; rfl
    · rw [if_neg hy, List.map_cons, List.map_cons, ih]

private theorem mem_remove {a : Nat} : ∀ {l : List (Nat × Option Nat)}, (l.map Prod.fst).Nodup →
    ∀ x, x ∈ remove a l ↔ x.1 ≠ a ∧ x ∈ l := by
  intro l
  induction l with
  | nil => intro _ x; simp [remove]
  | cons y l ih =>
    intro hn x
    rw [List.map_cons, List.nodup_cons] at hn
    unfold remove
    by_cases hy : y.1 = a
    · rw [if_pos hy]
      constructor
      · intro hx
        refine ⟨?_, List.mem_cons_of_mem _ hx⟩
        intro hc
        exact hn.1 (List.mem_map.2 ⟨x, hx, hc.trans hy.symm⟩)
      · rintro ⟨h1, h2⟩
        rcases List.mem_cons.1 h2 with rfl | h2
        · exact absurd hy h1
        · exact h2
    · rw [if_neg hy, List.mem_cons, ih hn.2 x, List.mem_cons]
      constructor
      · rintro (rfl | ⟨h1, h2⟩)
        · exact ⟨hy, Or.inl rfl⟩
        · exact ⟨h1, Or.inr h2⟩
      · rintro ⟨h1, rfl | h2⟩
        · exact Or.inl rfl
        · exact Or.inr ⟨h1, h2⟩

private theorem remove_nodup {a : Nat} : ∀ {l : List (Nat × Option Nat)}, (l.map Prod.fst).Nodup → ((remove a l).map Prod.fst).Nodup := by
  intro l
  induction l with
  | nil => intro _; exact List.nodup_nil
  | cons y l ih =>
    intro hn
    have hn' := hn
    rw [List.map_cons, List.nodup_cons] at hn
    unfold remove
    by_cases hy : y.1 = a
    · rw [if_pos hy]; exact hn.2
    · rw [if_neg hy, List.map_cons, List.nodup_cons]
      refine ⟨?_, ih hn.2⟩
      intro hc
      obtain ⟨x, hx, hx'⟩ := List.mem_map.1 hc
      exact hn.1 (List.mem_map.2 ⟨x, ((mem_remove hn.2 x).1 hx).2, hx'⟩)

private theorem isSel_iff (s : St) (a : Nat) : isSel s a = true ↔ ∃ t, (a, t) ∈ s.sels := by
  unfold isSel
  rw [List.any_eq_true]
  constructor
  · rintro ⟨⟨b, t⟩, h1, h2⟩
    have : b = a := by simpa using h2
    exact ⟨t, this ▸ h1⟩
  · rintro ⟨t, h⟩; exact ⟨(a, t), h, by simp⟩

/-- one event: the entries afterwards -/
private theorem step_sels {s : St} (hn : (s.sels.map Prod.fst).Nodup) (e : Ev) :
    ((step s e).sels.map Prod.fst).Nodup ∧
    ∀ a t, (a, t) ∈ (step s e).sels ↔ ((∃ now rel, e = .select a now rel ∧ t = timer now rel) ∨ (¬ About a e ∧ (a, t) ∈ s.sels)) := by
  have same : ∀ a t, (∀ now rel, e ≠ .select a now rel) → ¬ About a e →
      ((a, t) ∈ s.sels ↔ ((∃ now rel, e = .select a now rel ∧ t = timer now rel) ∨ (¬ About a e ∧ (a, t) ∈ s.sels))) := by
    intro a t h1 h2
    constructor
    · intro h; exact Or.inr ⟨h2, h⟩
    · rintro (⟨now, rel, h, -⟩ | h)
      · exact absurd h (h1 now rel)
      · exact h.2
  cases e with
  | select b now rel =>
    unfold step
    simp only
    by_cases hs : isSel s b = true
    · rw [if_pos hs]
      refine ⟨by simp only; rw [refresh_fst]; exact hn, ?_⟩
      intro a t
      simp only
      rw [mem_refresh hn ((isSel_iff s b).1 hs)]
      unfold About
      constructor
      · rintro (⟨h1, h2⟩ | h)
        · exact Or.inr ⟨fun hc => h1 hc.symm, h2⟩
        · injection h with h1 h2
          subst h1
          exact Or.inl ⟨now, rel, rfl, h2⟩
      · rintro (⟨n', r', h1, h2⟩ | ⟨h1, h2⟩)
        · injection h1 with h1 h3 h4
          subst h1; subst h3; subst h4
          exact Or.inr (by rw [h2])
        · exact Or.inl ⟨fun hc => h1 hc.symm, h2⟩
    · rw [if_neg hs]
      have hno : ∀ t, (b, t) ∉ s.sels := fun t ht => hs ((isSel_iff s b).2 ⟨t, ht⟩)
      refine ⟨?_, ?_⟩
      · simp only
        rw [List.map_cons, List.nodup_cons]
        refine ⟨?_, hn⟩
        intro hc
        obtain ⟨⟨b', t⟩, hx, hx'⟩ := List.mem_map.1 hc
        have : b' = b := hx'
        exact hno t (this ▸ hx)
      · intro a t
        simp only
        rw [List.mem_cons]
        unfold About
        constructor
        · rintro (h | h)
          · injection h with h1 h2
            subst h1
            exact Or.inl ⟨now, rel, rfl, h2⟩
          · refine Or.inr ⟨?_, h⟩
            rintro rfl
            exact hno t h
        · rintro (⟨n', r', h1, h2⟩ | ⟨h1, h2⟩)
          · injection h1 with h1 h3 h4
            subst h1; subst h3; subst h4
            exact Or.inl (by rw [h2])
          · exact Or.inr h2
  | expire b =>
    unfold step
    simp only
    by_cases hs : isSel s b = true
    · rw [if_pos hs]
      refine ⟨remove_nodup hn, ?_⟩
      intro a t
      simp only
      rw [mem_remove hn]
      unfold About
      constructor
      · rintro ⟨h1, h2⟩; exact Or.inr ⟨fun hc => h1 hc.symm, h2⟩
      · rintro (⟨n', r', h1, h2⟩ | ⟨h1, h2⟩)
        · cases h1
        · exact ⟨fun hc => h1 hc.symm, h2⟩
    · rw [if_neg hs]
      refine ⟨hn, ?_⟩
      intro a t
      unfold About
      constructor
      · intro h
        refine Or.inr ⟨?_, h⟩
        rintro rfl
        exact hs ((isSel_iff s b).2 ⟨t, h⟩)
      · rintro (⟨n', r', h1, h2⟩ | ⟨h1, h2⟩)
        · cases h1
        · exact h2
  | newNbr b =>
    have e1 : (step s (.newNbr b)).sels = s.sels := by unfold step; simp only; split <;> rfl
    rw [e1]; exact ⟨hn, fun a t => same a t (fun _ _ h => by cases h) (fun h => h)⟩
  | delNbr b =>
    have e1 : (step s (.delNbr b)).sels = s.sels := by unfold step; simp only; split <;> rfl
    rw [e1]; exact ⟨hn, fun a t => same a t (fun _ _ h => by cases h) (fun h => h)⟩
  | status b v => exact ⟨hn, fun a t => same a t (fun _ _ h => by cases h) (fun h => h)⟩
  | mprs f => exact ⟨hn, fun a t => same a t (fun _ _ h => by cases h) (fun h => h)⟩
  | cost b c r => exact ⟨hn, fun a t => same a t (fun _ _ h => by cases h) (fun h => h)⟩
  | tick =>
    have e1 : (step s .tick).sels = s.sels := by unfold step; simp only; split <;> rfl
    rw [e1]; exact ⟨hn, fun a t => same a t (fun _ _ h => by cases h) (fun h => h)⟩

/-- **C84** the selectors at any time are those whose last selecting HELLO has not timed out, each once, with the
validity time of that HELLO. -/
theorem C84_selectors (red : Nat) (lq : Bool) (es : List Ev) :
    ((run (start red lq) es).sels.map Prod.fst).Nodup ∧
    ∀ a t, (a, t) ∈ (run (start red lq) es).sels ↔
      ∃ pre now rel post, es = pre ++ .select a now rel :: post ∧ (∀ e ∈ post, ¬ About a e) ∧
        t = (if rel = 0 then none else some (now + rel)) := by
  have key : ∀ (es : List Ev) (s : St), (s.sels.map Prod.fst).Nodup →
      ((run s es).sels.map Prod.fst).Nodup ∧
      ∀ a t, (a, t) ∈ (run s es).sels ↔
        (∃ pre now rel post, es = pre ++ .select a now rel :: post ∧ (∀ e ∈ post, ¬ About a e) ∧ t = timer now rel) ∨
        ((∀ e ∈ es, ¬ About a e) ∧ (a, t) ∈ s.sels) := by
    intro es
    induction es with
    | nil =>
      intro s hn
      refine ⟨hn, fun a t => ⟨fun h => Or.inr ⟨fun e he => (by cases he), h⟩, ?_⟩⟩
      rintro (⟨pre, now, rel, post, h, -⟩ | h)
      · cases pre <;> cases h
      · exact h.2
    | cons e es ih =>
      intro s hn
      obtain ⟨g1, g2⟩ := step_sels hn e
      obtain ⟨i1, i2⟩ := ih (step s e) g1
      refine ⟨i1, ?_⟩
      intro a t
      show (a, t) ∈ (run (step s e) es).sels ↔ _
      rw [i2 a t, g2 a t]
      constructor
      · rintro (⟨pre, now, rel, post, h1, h2, h3⟩ | ⟨h1, ⟨now, rel, rfl, h2⟩ | ⟨h2, h3⟩⟩)
        · exact Or.inl ⟨e :: pre, now, rel, post, by rw [h1]; rfl, h2, h3⟩
        · exact Or.inl ⟨[], now, rel, es, rfl, h1, h2⟩
        · refine Or.inr ⟨?_, h3⟩
          intro e' he'
          rcases List.mem_cons.1 he' with rfl | he'
          · exact h2
          · exact h1 e' he'
      · rintro (⟨pre, now, rel, post, h1, h2, h3⟩ | ⟨h1, h2⟩)
        · cases pre with
          | nil =>
            injection h1 with h1 h4
            subst h4
            exact Or.inr ⟨h2, Or.inl ⟨now, rel, h1, h3⟩⟩
          | cons e' pre =>
            injection h1 with h1 h4
            exact Or.inl ⟨pre, now, rel, post, h4, h2, h3⟩
        · exact Or.inr ⟨fun e' he' => h1 e' (List.mem_cons_of_mem _ he'), Or.inr ⟨h1 e (List.mem_cons_self ..), h2⟩⟩
  obtain ⟨k1, k2⟩ := key es (start red lq) List.nodup_nil
  refine ⟨k1, ?_⟩
  intro a t
  rw [k2 a t]
  constructor
  · rintro (⟨pre, now, rel, post, h1, h2, h3⟩ | ⟨-, h⟩)
    · exact ⟨pre, now, rel, post, h1, h2, h3⟩
    · cases h
  · rintro ⟨pre, now, rel, post, h1, h2, h3⟩
    exact Or.inl ⟨pre, now, rel, post, h1, h2, h3⟩

/-- two selectors, the first refreshed and the second expired -/
example : (run (start 0 true) [.select 7 100 50, .select 8 110 50, .select 7 120 60, .expire 8]).sels = [(7, some 180)] := by decide

/-- **C84, not removed with the link**: RFC 3626 (8.5) deletes the MPR selector tuples of a neighbour that is lost; here the loss of
a neighbour, or a HELLO that no longer selects this host (no event at all), leaves them. -/
theorem C84_loss_keeps (s : St) (a : Nat) (v : Bool) : (step s (.delNbr a)).sels = s.sels ∧ (step s (.status a v)).sels = s.sels := by
  refine ⟨?_, rfl⟩
  unfold step; simp only; split <;> rfl

/-- a selector that is gone: it is a selector of this host without being a neighbour -/
example : (run (start 0 true) [.newNbr 7, .status 7 true, .select 7 100 50, .delNbr 7]).sels = [(7, some 150)] ∧
    (run (start 0 true) [.newNbr 7, .status 7 true, .select 7 100 50, .delNbr 7]).nbrs = [] := by decide

/-! ## C85: the sequence number -/

/-- Changes of the advertised set that are not signalled: the status of a neighbour when `tc_redundancy` is 0 or 1; with 1, a neighbour that is no MPR
any more (with link quality) or has become one (without); and changes of link cost the plug-in does not find relevant. -/
def Unsignalled (s : St) : Ev → Prop
  | .status .. => s.red ≤ 1
  | .mprs new => s.red = 1 ∧ ∃ n ∈ s.nbrs, if s.lq then n.mpr = true ∧ new n.addr = false else n.mpr = false ∧ new n.addr = true
  | .cost _ _ relevant => s.lq = true ∧ relevant = false
  | _ => False

/-- The same addresses. -/
def SameSet (l l' : List Nat) : Prop := ∀ a, a ∈ l ↔ a ∈ l'

private theorem mem_adv (s : St) (a : Nat) : a ∈ advertised s ↔ ∃ n ∈ s.nbrs, advertise s n = true ∧ n.addr = a := by
  unfold advertised
  rw [List.mem_map]
  constructor
  · rintro ⟨n, hn, h⟩; exact ⟨n, (List.mem_filter.1 hn).1, (List.mem_filter.1 hn).2, h⟩
  · rintro ⟨n, h1, h2, h3⟩; exact ⟨n, List.mem_filter.2 ⟨h1, h2⟩, h3⟩

private theorem adv_of_map (s s' : St) (f : Nbr → Nbr) (h1 : s'.nbrs = s.nbrs.map f) (h2 : ∀ n ∈ s.nbrs, (f n).addr = n.addr ∧ advertise s' (f n) = advertise s n) :
    SameSet (advertised s') (advertised s) := by
  intro a
  rw [mem_adv, mem_adv, h1]
  constructor
  · rintro ⟨n, hn, h3, h4⟩
    obtain ⟨n0, hn0, rfl⟩ := List.mem_map.1 hn
    obtain ⟨h5, h6⟩ := h2 n0 hn0
    exact ⟨n0, hn0, by rw [← h6]; exact h3, by rw [← h5]; exact h4⟩
  · rintro ⟨n, hn, h3, h4⟩
    obtain ⟨h5, h6⟩ := h2 n hn
    exact ⟨f n, List.mem_map.2 ⟨n, hn, rfl⟩, by rw [h6]; exact h3, by rw [h5]; exact h4⟩

/-- **C85** the advertised neighbours: symmetric ones; with TC redundancy 0 those that selected this host, with 1 also those selected by it, with 2 all; with link quality
only over a link that is not broken. -/
theorem C85_advertised (s : St) (a : Nat) :
    a ∈ advertised s ↔ ∃ n ∈ s.nbrs, n.addr = a ∧ n.sym = true ∧
      (s.red = 0 → ∃ t, (a, t) ∈ s.sels) ∧ (s.red = 1 → n.mpr = true ∨ ∃ t, (a, t) ∈ s.sels) ∧
      (s.lq = true → ∃ c, n.cost = some c ∧ c < 4194304) ∧ (s.lq = false → 2 < s.red → ∃ t, (a, t) ∈ s.sels) := by
  rw [mem_adv]
  constructor
  · rintro ⟨n, hn, h1, rfl⟩
    refine ⟨n, hn, rfl, ?_⟩
    unfold advertise at h1
    rw [Bool.and_eq_true] at h1
    obtain ⟨h1, h2⟩ := h1
    refine ⟨h1, ?_⟩
    rw [← isSel_iff]
    cases hlq : s.lq with
    | true =>
      rw [hlq] at h2
      simp only [if_true, Bool.and_eq_true, Bool.not_eq_true', Bool.and_eq_false_iff, Bool.not_eq_false'] at h2
      obtain ⟨⟨h2, h3⟩, h4⟩ := h2
      refine ⟨?_, ?_, ?_, fun h => by cases h⟩
      · intro hr; rw [hr] at h3; simpa using h3
      · intro hr; rw [hr] at h2; simpa using h2
      · intro _
        cases hc : n.cost with
        | none => rw [hc] at h4; cases h4
        | some c => rw [hc] at h4; exact ⟨c, rfl, of_decide_eq_true h4⟩
    | false =>
      rw [hlq] at h2
      simp only [Bool.false_eq_true, if_false] at h2
      refine ⟨?_, ?_, fun h => (by cases h), ?_⟩
      · intro hr; rw [hr] at h2; simpa using h2
      · intro hr; rw [hr] at h2; simpa using h2
      · intro _ hr
        rw [if_neg (by omega), if_neg (by omega)] at h2
        exact h2
  · rintro ⟨n, hn, rfl, h1, h2, h3, h4, h5⟩
    refine ⟨n, hn, ?_, rfl⟩
    rw [← isSel_iff] at h2 h3 h5
    unfold advertise
    rw [h1, Bool.true_and]
    cases hlq : s.lq with
    | true =>
      obtain ⟨c, hc, hc'⟩ := h4 hlq
      simp only [if_true, Bool.and_eq_true, Bool.not_eq_true', Bool.and_eq_false_iff, Bool.not_eq_false']
      refine ⟨⟨?_, ?_⟩, ?_⟩
      · by_cases hr : s.red = 1
        · rcases h3 hr with h | h
          · exact Or.inl (Or.inr h)
          · exact Or.inr h
        · exact Or.inl (Or.inl (by simpa using hr))
      · by_cases hr : s.red = 0
        · exact Or.inr (h2 hr)
        · exact Or.inl (by simpa using hr)
      · rw [hc]; exact decide_eq_true hc'
    | false =>
      simp only [Bool.false_eq_true, if_false]
      by_cases hr2 : s.red = 2
      · rw [if_pos hr2]
      · rw [if_neg hr2]
        by_cases hr1 : s.red = 1
        · rw [if_pos hr1]
          rcases h3 hr1 with h | h
          · rw [h]; rfl
          · rw [h]; simp
        · rw [if_neg hr1]
          by_cases hr0 : s.red = 0
          · exact h2 hr0
          · exact h5 hlq (by omega)

/-- redundancy 1: a selector and an MPR are advertised, others and broken links are not -/
example : advertised ⟨1, true, [(7, none)], [⟨7, true, false, some 5⟩, ⟨8, true, true, some 5⟩, ⟨9, true, false, some 5⟩, ⟨10, true, true, some 4194304⟩], false, 0⟩ =
    [7, 8] := by decide

/-- **C85** (partial), every change of the advertised neighbours is signalled, except those listed in `Unsignalled`. -/
theorem C85_signalled_partial (s : St) (hred : s.red ≤ 2) (e : Ev) (hu : ¬ Unsignalled s e) :
    (step s e).flag = true ∨ SameSet (advertised (step s e)) (advertised s) := by
  have same : ∀ s' : St, s'.red = s.red → s'.lq = s.lq → s'.nbrs = s.nbrs → (∀ a, isSel s' a = isSel s a) →
      SameSet (advertised s') (advertised s) := by
    intro s' h1 h2 h3 h4 a
    rw [mem_adv, mem_adv, h3]
    unfold advertise
    rw [h1, h2]
    simp only [h4]
  cases e with
  | select a now rel =>
    unfold step
    simp only
    by_cases hs : isSel s a = true
    · rw [if_pos hs]
      right
      refine same _ rfl rfl rfl ?_
      intro b
      unfold isSel
      have : ∀ l : List (Nat × Option Nat), (refresh a now rel l).any (fun x => x.1 == b) = l.any (fun x => x.1 == b) := by
        intro l
        have h1 : ∀ l : List (Nat × Option Nat), l.any (fun x => x.1 == b) = (l.map Prod.fst).any (fun x => x == b) := by
          intro l; rw [List.any_map]; rfl
        rw [h1, h1, refresh_fst]
      exact this _
    · rw [if_neg hs]; exact Or.inl rfl
  | expire a =>
    unfold step
    simp only
    by_cases hs : isSel s a = true
    · rw [if_pos hs]; exact Or.inl rfl
    · rw [if_neg hs]; exact Or.inr (fun _ => Iff.rfl)
  | newNbr a =>
    unfold step
    simp only
    by_cases hs : s.nbrs.any (fun n => n.addr == a) = true
    · rw [if_pos hs]; exact Or.inr (fun _ => Iff.rfl)
    · rw [if_neg hs]
      right
      intro b
      rw [mem_adv, mem_adv]
      simp only
      constructor
      · rintro ⟨n, hn, h1, h2⟩
        rcases List.mem_cons.1 hn with rfl | hn
        · unfold advertise at h1; simp at h1
        · exact ⟨n, hn, h1, h2⟩
      · rintro ⟨n, hn, h1, h2⟩
        exact ⟨n, List.mem_cons_of_mem _ hn, h1, h2⟩
  | delNbr a =>
    unfold step
    simp only
    by_cases hs : s.nbrs.any (fun n => n.addr == a) = true
    · rw [if_pos hs]; exact Or.inl rfl
    · rw [if_neg hs]; exact Or.inr (fun _ => Iff.rfl)
  | status a v =>
    have hr : 1 < s.red := by
      have : ¬ s.red ≤ 1 := hu
      omega
    unfold step
    simp only
    by_cases hc : s.nbrs.any (fun n => n.addr == a && n.sym != v) = true
    · left; rw [hc]; simp [hr]
    · right
      refine adv_of_map s _ (fun n => if n.addr = a then { n with sym := v } else n) rfl ?_
      intro n hn
      by_cases hna : n.addr = a
      · have hsv : n.sym = v := by
          cases hb : (n.sym != v) with
          | false => simpa using hb
          | true => exact absurd (List.any_eq_true.2 ⟨n, hn, by simp [hna, hb]⟩) hc
        rw [if_pos hna]
        refine ⟨rfl, ?_⟩
        subst hsv
        rfl
      · rw [if_neg hna]; exact ⟨rfl, rfl⟩
  | mprs new =>
    by_cases hr : s.red = 1
    · unfold step
      simp only
      by_cases hc : s.nbrs.any (fun n => if s.lq then new n.addr && !n.mpr else n.mpr && !new n.addr) = true
      · left; rw [hc, hr]; simp
      · right
        refine adv_of_map s _ (fun n => { n with mpr := new n.addr }) rfl ?_
        intro n hn
        have hnew : new n.addr = n.mpr := by
          have h1 : ¬ (if s.lq then new n.addr && !n.mpr else n.mpr && !new n.addr) = true :=
            fun h => hc (List.any_eq_true.2 ⟨n, hn, h⟩)
          have h2 : ¬ (if s.lq then n.mpr = true ∧ new n.addr = false else n.mpr = false ∧ new n.addr = true) :=
            fun h => hu ⟨hr, n, hn, h⟩
          revert h1 h2
          cases s.lq <;> cases new n.addr <;> cases n.mpr <;> simp
        simp only [hnew]
        exact ⟨trivial, rfl⟩
    · right
      unfold step
      simp only
      refine adv_of_map s _ (fun n => { n with mpr := new n.addr }) rfl ?_
      intro n hn
      refine ⟨rfl, ?_⟩
      unfold advertise
      simp only [hr, if_false]
      have : (s.red == 1) = false := by simpa using hr
      simp only [this, Bool.false_and]
      rfl
  | cost a c relevant =>
    unfold step
    simp only
    cases hrel : relevant with
    | true => left; simp
    | false =>
      right
      have hlq : s.lq = false := by
        cases h : s.lq with
        | false => rfl
        | true => exact absurd ⟨h, hrel⟩ hu
      refine adv_of_map s _ (fun n => if n.addr = a then { n with cost := c } else n) rfl ?_
      intro n hn
      by_cases hna : n.addr = a
      · rw [if_pos hna]
        refine ⟨rfl, ?_⟩
        unfold advertise
        simp only [hlq]
        rfl
      · rw [if_neg hna]; exact ⟨rfl, rfl⟩
  | tick =>
    unfold step
    simp only
    by_cases hf : s.flag = true
    · rw [if_pos hf]; exact Or.inr (same _ rfl rfl rfl (fun _ => rfl))
    · rw [if_neg hf]; exact Or.inr (fun _ => Iff.rfl)

/-- No unsignalled change on the way. -/
def AllSignalled : St → List Ev → Prop
  | _, [] => True
  | s, e :: es => ¬ Unsignalled s e ∧ AllSignalled (step s e) es

/-- How often the main loop goes round. -/
def rounds (es : List Ev) : Nat := (es.filter (fun e => match e with | .tick => true | _ => false)).length

private theorem step_red (s : St) (e : Ev) : (step s e).red = s.red := by
  cases e <;> unfold step <;> simp only <;> (try split) <;> rfl

private theorem step_mono (s : St) (e : Ev) (ht : e ≠ .tick) (h : s.flag = true) : (step s e).flag = true ∧ (step s e).ansn = s.ansn := by
  cases e with
  | tick => exact absurd rfl ht
  | select a now rel => unfold step; simp only; split <;> exact ⟨by first | exact h | rfl, rfl⟩
  | expire a => unfold step; simp only; split <;> exact ⟨by first | exact h | rfl, rfl⟩
  | newNbr a => unfold step; simp only; split <;> exact ⟨h, rfl⟩
  | delNbr a => unfold step; simp only; split <;> exact ⟨by first | exact h | rfl, rfl⟩
  | status a v => unfold step; simp only; rw [h]; exact ⟨rfl, trivial⟩
  | mprs f => unfold step; simp only; rw [h]; exact ⟨rfl, trivial⟩
  | cost a c r => unfold step; simp only; rw [h]; exact ⟨rfl, trivial⟩

private theorem step_ansn (s : St) (e : Ev) (ht : e ≠ .tick) : (step s e).ansn = s.ansn := by
  cases e with
  | tick => exact absurd rfl ht
  | select a now rel => unfold step; simp only; split <;> rfl
  | expire a => unfold step; simp only; split <;> rfl
  | newNbr a => unfold step; simp only; split <;> rfl
  | delNbr a => unfold step; simp only; split <;> rfl
  | status a v => rfl
  | mprs f => rfl
  | cost a c r => rfl

/-- **C85** (partial), the sequence number identifies the set: of two TC messages, the second one generated when no change is pending, with less than 65536 rounds of the
main loop between them and all changes signalled, those with the same number advertise the same neighbours.  Not
covered: messages generated while a change is pending (`C85_number_too_late`) and unsignalled changes (`C85_status_change`). -/
theorem C85_number_partial (s : St) (hred : s.red ≤ 2) (hansn : s.ansn < 65536) (es : List Ev) (hsig : AllSignalled s es) (hr : rounds es < 65536)
    (h2 : (run s es).flag = false) (hsame : (run s es).ansn = s.ansn) :
    SameSet (advertised (run s es)) (advertised s) := by
  have key : ∀ (es : List Ev) (s : St), s.red ≤ 2 → s.ansn < 65536 → AllSignalled s es →
      ∃ k, k ≤ rounds es ∧ (run s es).ansn = (s.ansn + k) % 65536 ∧
        (k = 0 → (run s es).flag = false → s.flag = false ∧ SameSet (advertised (run s es)) (advertised s)) := by
    intro es
    induction es with
    | nil =>
      intro s _ ha _
      exact ⟨0, Nat.zero_le _, (Nat.mod_eq_of_lt ha).symm, fun _ hf => ⟨hf, fun _ => Iff.rfl⟩⟩
    | cons e es ih =>
      intro s hred ha hsig
      by_cases ht : e = .tick
      · subst ht
        have hro : rounds (.tick :: es) = rounds es + 1 := rfl
        cases hf : s.flag with
        | true =>
          have hst : step s .tick = { s with ansn := (s.ansn + 1) % 65536, flag := false } := by unfold step; simp only; rw [if_pos hf]
          obtain ⟨k, k1, k2, k3⟩ := ih (step s .tick) (by rw [step_red]; exact hred) (by rw [hst]; exact Nat.mod_lt _ (by decide)) hsig.2
          refine ⟨k + 1, by omega, ?_, fun h => by omega⟩
          show (run (step s .tick) es).ansn = _
          rw [k2, hst]
          simp only
          omega
        | false =>
          have hst : step s .tick = s := by unfold step; simp only; rw [hf]; rfl
          obtain ⟨k, k1, k2, k3⟩ := ih (step s .tick) (by rw [step_red]; exact hred) (by rw [hst]; exact ha) hsig.2
          rw [hst] at k2 k3
          refine ⟨k, by omega, ?_, ?_⟩
          · show (run (step s .tick) es).ansn = _
            rw [hst]; exact k2
          · intro h hf'
            have hf'' : (run s es).flag = false := by rw [← hst]; exact hf'
            refine ⟨rfl, ?_⟩
            show SameSet (advertised (run (step s .tick) es)) _
            rw [hst]
            exact (k3 h hf'').2
      · have hro : rounds (e :: es) = rounds es := by
          unfold rounds
          rw [List.filter_cons_of_neg]
          cases e <;> first | exact absurd rfl ht | simp
        have han := step_ansn s e ht
        obtain ⟨k, k1, k2, k3⟩ := ih (step s e) (by rw [step_red]; exact hred) (by rw [han]; exact ha) hsig.2
        refine ⟨k, by omega, ?_, ?_⟩
        · show (run (step s e) es).ansn = _
          rw [k2, han]
        · intro h hf'
          obtain ⟨m1, m2⟩ := k3 h hf'
          have hsf : s.flag = false := by
            cases hf : s.flag with
            | false => rfl
            | true => rw [(step_mono s e ht hf).1] at m1; cases m1
          refine ⟨hsf, ?_⟩
          rcases C85_signalled_partial s hred e hsig.1 with h3 | h3
          · rw [h3] at m1; cases m1
          · intro a
            exact (m2 a).trans (h3 a)
  obtain ⟨k, k1, k2, k3⟩ := key es s hred hansn hsig
  rw [hsame] at k2
  have hk : k = 0 := by omega
  exact (k3 hk h2).2

/-- a neighbour becomes symmetric (redundancy 2, no link quality): the number is new -/
example : (run (start 2 false) [.newNbr 7, .status 7 true, .tick]).ansn = 1 ∧
    advertised (run (start 2 false) [.newNbr 7, .status 7 true, .tick]) = [7] ∧
    AllSignalled (start 2 false) [.newNbr 7, .status 7 true, .tick] := by
  refine ⟨by decide, by decide, ?_⟩
  exact ⟨id, by show ¬ (2 ≤ 1); decide, id, trivial⟩

/-- **C85 is false** of messages generated while a change is pending: the main loop handles received packets at its end, then
runs the timers, and only then increases the number (scheduler.c 548-586).  A TC message generated by a timer after a selecting HELLO carries the
new set with the number of the message before; the one after the increase carries the same set with another number. -/
theorem C85_number_too_late :
    ∃ (s : St) (hello : Ev), s.flag = false ∧
      (step s hello).ansn = s.ansn ∧ advertised s = [] ∧ advertised (step s hello) = [7] ∧
      (step (step s hello) .tick).ansn ≠ s.ansn :=
  ⟨{ red := 0, lq := true, sels := [], nbrs := [⟨7, true, false, some 1024⟩], flag := false, ansn := 5 }, .select 7 1000 20000,
    by decide, by decide, by decide, by decide, by decide⟩

/-- **C85 is false** of a change of a neighbour's status when `tc_redundancy` is 0 or 1: a selector whose link is lost is not advertised
any more, and the number stays the same for good. -/
theorem C85_status_change (red : Nat) (hred : red ≤ 1) (lq : Bool) :
    ∃ s : St, s.red = red ∧ s.lq = lq ∧ s.flag = false ∧ advertised s = [7] ∧
      advertised (run s [.status 7 false, .tick]) = [] ∧ (run s [.status 7 false, .tick]).ansn = s.ansn := by
  refine ⟨{ red := red, lq := lq, sels := [(7, none)], nbrs := [⟨7, true, false, some 1024⟩], flag := false, ansn := 5 }, rfl, rfl, rfl, ?_⟩
  have : red = 0 ∨ red = 1 := by omega
  rcases this with rfl | rfl <;> cases lq <;> decide

/-! ## C86: empty TC messages -/

private theorem timedOut_iff (hold T0 T : Nat) (h0 : T0 ≤ T) (hh : hold < 2 ^ 31) (h1 : T < T0 + hold + 2 ^ 31) :
    isTimedOut (T % 4294967296) (getTimestamp (T0 % 4294967296) hold) = false ↔ T < T0 + hold := by
  unfold isTimedOut getTimestamp
  split <;> simp only [decide_eq_false_iff_not] <;> omega

/-- The messages generated at the given times, from the state: whether each is sent. -/
def sent (out : Nat → Emp → Bool → Emp × Bool) : Emp → List (Nat × Bool) → List Bool
  | _, [] => []
  | e, (t, ne) :: l => (out (t % 4294967296) e ne).2 :: sent out (out (t % 4294967296) e ne).1 l

/-- **C86** (partial), after the last message with neighbours, empty messages are sent for three times the greatest emission interval, counted from
the first empty one, and then no more (for the next 24 days); messages with neighbours are always sent.  The full claim is that empty messages are sent as long as the messages
before them are valid: `C86_shorter_than_validity`. -/
theorem C86_empty_partial (hold : Nat) (hh : hold < 2 ^ 31) (e : Emp) (he : e.empty = false) (T1 : Nat) (ts : List Nat)
    (hts : ∀ t ∈ ts, T1 ≤ t ∧ t < T1 + hold + 2 ^ 31) :
    sent (outputLq hold) e ((T1, false) :: ts.map (fun t => (t, false))) = true :: ts.map (fun t => decide (t < T1 + hold)) ∧
    sent (outputTc hold) e ((T1, false) :: ts.map (fun t => (t, false))) = decide (0 < hold) :: ts.map (fun t => decide (t < T1 + hold)) := by
  obtain ⟨w, hw⟩ : ∃ w, w = getTimestamp (T1 % 4294967296) hold := ⟨_, rfl⟩
  have hdec : ∀ t, T1 ≤ t → t < T1 + hold + 2 ^ 31 → (!isTimedOut (t % 4294967296) w) = decide (t < T1 + hold) := by
    intro t h1 h2
    have := timedOut_iff hold T1 t h1 hh h2
    rw [← hw] at this
    cases hb : isTimedOut (t % 4294967296) w with
    | false => have := this.1 hb; simp [this]
    | true =>
      have : ¬ t < T1 + hold := fun h => by rw [this.2 h] at hb; cases hb
      simp [this]
  have keyL : ∀ ts : List Nat, (∀ t ∈ ts, T1 ≤ t ∧ t < T1 + hold + 2 ^ 31) →
      sent (outputLq hold) ⟨true, w⟩ (ts.map (fun t => (t, false))) = ts.map (fun t => decide (t < T1 + hold)) := by
    intro ts
    induction ts with
    | nil => intro _; rfl
    | cons t ts ih =>
      intro h
      have h1 := h t (List.mem_cons_self ..)
      rw [List.map_cons, List.map_cons]
      show (!isTimedOut (t % 4294967296) w) :: sent (outputLq hold) ⟨true, w⟩ _ = _
      rw [hdec t h1.1 h1.2, ih (fun t' ht' => h t' (List.mem_cons_of_mem _ ht'))]
  have keyT : ∀ ts : List Nat, (∀ t ∈ ts, T1 ≤ t ∧ t < T1 + hold + 2 ^ 31) →
      sent (outputTc hold) ⟨true, w⟩ (ts.map (fun t => (t, false))) = ts.map (fun t => decide (t < T1 + hold)) := by
    intro ts
    induction ts with
    | nil => intro _; rfl
    | cons t ts ih =>
      intro h
      have h1 := h t (List.mem_cons_self ..)
      rw [List.map_cons, List.map_cons]
      show (!isTimedOut (t % 4294967296) w) :: sent (outputTc hold) ⟨true, w⟩ _ = _
      rw [hdec t h1.1 h1.2, ih (fun t' ht' => h t' (List.mem_cons_of_mem _ ht'))]
  obtain ⟨em, ti⟩ := e
  simp only at he
  subst he
  constructor
  · show true :: sent (outputLq hold) ⟨true, getTimestamp (T1 % 4294967296) hold⟩ _ = _
    rw [← hw, keyL ts hts]
  · show (!isTimedOut (T1 % 4294967296) (getTimestamp (T1 % 4294967296) hold)) :: sent (outputTc hold) ⟨true, getTimestamp (T1 % 4294967296) hold⟩ _ = _
    rw [← hw, keyT ts hts, hdec T1 (Nat.le_refl _) (by omega)]
    have : decide (T1 < T1 + hold) = decide (0 < hold) := by
      by_cases h : 0 < hold
      · simp [h]
      · have : hold = 0 := by omega
        simp [this]
    rw [this]

/-- messages with neighbours until 10 s, none after; emission interval 5 s -/
example : sent (outputLq 15000) (startEmp 0) [(5000, false), (10000, true), (15000, false), (20000, false), (29999, false), (30000, false)] =
    [false, true, true, true, true, false] := by decide

/-- **C86 is false** with the default times (emission interval 5 s, validity 300 s, olsr_protocol.h 73 and 88): the field `max_tc_vtime` holds the emission interval,
so empty messages end after 15 s, and a host that missed them keeps the neighbours for almost five minutes more. -/
theorem C86_shorter_than_validity (T0 T : Nat) (h1 : T0 + 20000 ≤ T) (h2 : T < T0 + 300000) (e : Emp) :
    sent (outputLq (3 * 5 * 1000)) e [(T0, true), (T0 + 5000, false), (T, false)] = [true, true, false] ∧
    sent (outputTc (3 * 5 * 1000)) e [(T0, true), (T0 + 5000, false), (T, false)] = [true, true, false] := by
  obtain ⟨a1, a2⟩ := C86_empty_partial 15000 (by decide) { e with empty := false } rfl (T0 + 5000) [T]
    (by intro t ht; rw [List.mem_singleton.1 ht]; omega)
  have hd : decide (T < T0 + 5000 + 15000) = false := by rw [decide_eq_false_iff_not]; omega
  rw [List.map_cons, List.map_nil, List.map_cons, List.map_nil, hd] at a1 a2
  constructor
  · show true :: sent (outputLq 15000) { e with empty := false } _ = _
    rw [a1]
  · show true :: sent (outputTc 15000) { e with empty := false } _ = _
    rw [a2]; rfl

/-- **C86 is false** after 24 days: the timer of empty messages is never stopped, and more than 2^31 ms after it was due it counts as not yet due.  A
host that never had a neighbour to advertise then sends empty TC messages for 24 days. -/
theorem C86_sent_again (T : Nat) (h1 : 2 ^ 31 < T) (h2 : T < 2 ^ 32) :
    sent (outputLq 15000) (startEmp 0) [(T, false)] = [true] ∧ sent (outputTc 15000) (startEmp 0) [(T, false)] = [true] := by
  have : isTimedOut (T % 4294967296) (getTimestamp 0 0) = false := by
    unfold isTimedOut getTimestamp
    split <;> simp only [decide_eq_false_iff_not] <;> omega
  constructor
  · show [!isTimedOut (T % 4294967296) (getTimestamp 0 0)] = _
    rw [this]; rfl
  · show [!isTimedOut (T % 4294967296) (getTimestamp 0 0)] = _
    rw [this]; rfl

end Verif.Ansn
