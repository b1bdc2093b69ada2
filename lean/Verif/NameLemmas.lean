import Verif.NameModel
/-
Lemmas about the nameservice messages.
-/

namespace Verif.Name

theorem padded_eq (n : Nat) : padded n = n + (4 - n % 4) % 4 := by
  unfold padded
  by_cases h : n = 0
  · subst h; rfl
  · rw [if_neg h]
    obtain ⟨m, rfl⟩ : ∃ m, n = m + 1 := ⟨n - 1, by omega⟩
    have h1 : m + 1 - 1 = m := by omega
    rw [h1]
    have h2 : m ||| 3 = 4 * (m / 4) + 3 := by
      have e : m = 2 ^ 2 * (m / 4) + m % 4 := by
        show m = 4 * (m / 4) + m % 4
        omega
      have hlt : m % 4 < 2 ^ 2 := by
        show m % 4 < 4
        omega
      have e2 := Nat.two_pow_add_eq_or_of_lt hlt (m / 4)
      have e3 := Nat.two_pow_add_eq_or_of_lt (show 3 < 2 ^ 2 by decide) (m / 4)
      have h3 : m % 4 ||| 3 = 3 := by
        have hr : m % 4 < 4 := by omega
        generalize m % 4 = r at hr
        match r, hr with
        | 0, _ => rfl
        | 1, _ => rfl
        | 2, _ => rfl
        | 3, _ => rfl
      have e4 : m ||| 3 = 2 ^ 2 * (m / 4) ||| 3 := by
        calc m ||| 3 = (2 ^ 2 * (m / 4) ||| m % 4) ||| 3 := by rw [← e2, ← e]
          _ = 2 ^ 2 * (m / 4) ||| 3 := by rw [Nat.or_assoc, h3]
      rw [e4, ← e3]
    rw [h2]
    omega

theorem get16_put16 (n : Nat) (h : n < 65536) (r : List Nat) : get16 (put16 n ++ r) = some n := by
  show some (n / 256 % 256 * 256 + n % 256) = some n
  have e : n / 256 % 256 * 256 + n % 256 = n := by omega
  rw [e]

theorem get16_append {a : List Nat} {n : Nat} (h : get16 a = some n) (f : List Nat) :
    get16 (a ++ f) = some n := by
  match a, h with
  | _ :: _ :: _, h => exact h

theorem cstr_append {a s : List Nat} (h : cstr a = some s) (f : List Nat) :
    cstr (a ++ f) = some s := by
  induction a generalizing s with
  | nil => cases h
  | cons b r ih =>
    unfold cstr at h
    show cstr (b :: (r ++ f)) = some s
    unfold cstr
    by_cases hb : b = 0
    · rw [if_pos hb] at h ⊢; exact h
    · rw [if_neg hb] at h ⊢
      cases hr : cstr r with
      | none => rw [hr] at h; cases h
      | some s' => rw [hr] at h; rw [ih hr]; exact h

theorem cstr_nul (s r : List Nat) (h : ∀ b ∈ s, b ≠ 0) : cstr (s ++ 0 :: r) = some s := by
  induction s with
  | nil => rfl
  | cons b t ih =>
    show cstr (b :: (t ++ 0 :: r)) = _
    unfold cstr
    rw [if_neg (h b (List.mem_cons_self)), ih (fun x hx => h x (List.mem_cons_of_mem _ hx))]

/-- What is read as a string contains no NUL, and a NUL follows it. -/
theorem cstr_spec {a s : List Nat} (h : cstr a = some s) :
    (∀ b ∈ s, b ≠ 0) ∧ ∃ r, a = s ++ 0 :: r := by
  induction a generalizing s with
  | nil => cases h
  | cons b r ih =>
    unfold cstr at h
    by_cases hb : b = 0
    · rw [if_pos hb] at h
      cases h
      exact ⟨fun x hx => (by cases hx), r, by rw [hb]; rfl⟩
    · rw [if_neg hb] at h
      cases hr : cstr r with
      | none => rw [hr] at h; cases h
      | some s' =>
        rw [hr] at h
        cases h
        obtain ⟨h1, t, h2⟩ := ih hr
        refine ⟨fun x hx => ?_, t, by rw [h2]; rfl⟩
        rcases List.mem_cons.1 hx with rfl | hx
        · exact hb
        · exact h1 x hx

theorem cstr_cons (b : Nat) (r : List Nat) (h : b ≠ 0) :
    cstr (b :: r) = (cstr r).map fun t => b :: t := by
  rw [cstr, if_neg h]
  cases cstr r <;> rfl

/-- A string followed by a byte that is not NUL is read on. -/
theorem cstr_longer (s : List Nat) (c : Nat) (r : List Nat) (hs : ∀ b ∈ s, b ≠ 0) (hc : c ≠ 0) :
    cstr (s ++ c :: r) = (cstr r).map fun t => s ++ c :: t := by
  induction s with
  | nil =>
    show cstr (c :: r) = _
    rw [cstr_cons c r hc]
    rfl
  | cons b t ih =>
    show cstr (b :: (t ++ c :: r)) = _
    rw [cstr_cons b _ (hs b List.mem_cons_self),
      ih (fun x hx => hs x (List.mem_cons_of_mem _ hx)), Option.map_map]
    rfl

theorem strncmpEq_prefix {a s : List Nat} (hs : ∀ b ∈ s, b ≠ 0) :
    strncmpEq a s s.length = true ↔ s <+: a := by
  unfold strncmpEq
  rw [beq_iff_eq, List.take_append_of_le_length (Nat.le_refl _), List.take_length]
  constructor
  · intro h
    by_cases hl : s.length ≤ a.length
    · rw [List.take_append_of_le_length hl] at h
      exact ⟨a.drop s.length, by rw [← h]; rw [List.length_take]
                                 rw [Nat.min_eq_left hl]
                                 exact List.take_append_drop _ _⟩
    · exfalso
      have h0 : (0 : Nat) ∈ (a ++ [0]).take s.length := by
        rw [List.take_of_length_le (by rw [List.length_append]; show a.length + 1 ≤ _; omega)]
        exact List.mem_append_right _ List.mem_cons_self
      rw [h] at h0
      exact hs 0 h0 rfl
  · rintro ⟨t, rfl⟩
    rw [List.append_assoc, List.take_append_of_le_length (Nat.le_refl _), List.take_length]

/-! ### Reads inside the message do not depend on what follows -/

theorem decap_append {wf : Nat → List Nat → Bool} {v6 : Bool} {b : List Nat} {to : List Ent}
    {x : List Ent × Bool} (h : decap wf v6 b to = some x) (f : List Nat) :
    decap wf v6 (b ++ f) to = some x := by
  unfold decap at h ⊢
  cases h1 : get16 b with
  | none => rw [h1] at h; cases h
  | some typ =>
    cases h2 : get16 (b.drop 2) with
    | none => rw [h1, h2] at h; cases h
    | some len =>
      rw [h1, h2] at h
      simp only [] at h
      by_cases h3 : b.length < 20
      · rw [if_pos h3] at h; cases h
      · rw [if_neg h3] at h
        have d2 : (b ++ f).drop 2 = b.drop 2 ++ f := List.drop_append_of_le_length (by omega)
        have d20 : (b ++ f).drop 20 = b.drop 20 ++ f := List.drop_append_of_le_length (by omega)
        have d4 : ((b ++ f).drop 4).take 16 = (b.drop 4).take 16 := by
          rw [List.drop_append_of_le_length (by omega),
            List.take_append_of_le_length (by rw [List.length_drop]; omega)]
        have h3' : ¬ (b ++ f).length < 20 := by rw [List.length_append]; omega
        rw [get16_append h1, d2, get16_append h2, d20, d4]
        simp only []
        rw [if_neg h3']
        by_cases h4 : typ = 1 ∧ 127 < len
        · rw [if_pos h4] at h ⊢; exact h
        · rw [if_neg h4] at h ⊢
          cases h5 : cstr (b.drop 20) with
          | none => rw [h5] at h; cases h
          | some s => rw [h5] at h; rw [cstr_append h5]; exact h

theorem insertName_append {wf : Nat → List Nat → Bool} {v6 : Bool} {typ : Nat} {o b : List Nat}
    {st st' : St} (h : insertName wf v6 typ o b st = some st') (f : List Nat) :
    insertName wf v6 typ o (b ++ f) st = some st' := by
  unfold insertName at h ⊢
  cases h1 : decap wf v6 b ((st.db typ o).getD []) with
  | none => rw [h1] at h; cases h
  | some x => rw [h1] at h; rw [decap_append h1]; exact h

theorem get16_len {b : List Nat} {n : Nat} (h : get16 b = some n) : 2 ≤ b.length := by
  match b, h with
  | _ :: _ :: _, _ => show 2 ≤ _ + 1 + 1; omega

theorem updLoop_append {wf : Nat → List Nat → Bool} {v6 : Bool} {o : List Nat} (n : Nat)
    {left : Int} {b : List Nat} {st st' : St} (h : updLoop wf v6 o n left b st = some st')
    (f : List Nat) : updLoop wf v6 o n left (b ++ f) st = some st' := by
  induction n generalizing left b st with
  | zero => exact h
  | succ i ih =>
    unfold updLoop at h ⊢
    by_cases hl : 0 < left
    · rw [if_pos hl] at h ⊢
      cases h1 : get16 b with
      | none => rw [h1] at h; cases h
      | some typ =>
        rw [h1] at h
        rw [get16_append h1]
        simp only [] at h ⊢
        cases h2 : (if typ ≤ 4 then insertName wf v6 typ o b st else some st) with
        | none => rw [h2] at h; cases h
        | some st1 =>
          rw [h2] at h
          have h2' : (if typ ≤ 4 then insertName wf v6 typ o (b ++ f) st else some st)
              = some st1 := by
            by_cases ht : typ ≤ 4
            · rw [if_pos ht] at h2 ⊢; exact insertName_append h2 f
            · rw [if_neg ht] at h2 ⊢; exact h2
          rw [h2']
          simp only [] at h ⊢
          cases h3 : get16 (b.drop 2) with
          | none => rw [h3] at h; cases h
          | some len =>
            rw [h3] at h
            have hb2 := get16_len h1
            have d2 : (b ++ f).drop 2 = b.drop 2 ++ f := List.drop_append_of_le_length hb2
            rw [d2, get16_append h3]
            simp only [] at h ⊢
            by_cases hlen : 20 + padded len ≤ b.length
            · rw [List.drop_append_of_le_length hlen]
              exact ih h
            · -- the next position is behind the message: nothing more was read
              have hnil : b.drop (20 + padded len) = [] := List.drop_eq_nil_of_le (by omega)
              rw [hnil] at h
              cases i with
              | zero => exact h
              | succ k =>
                unfold updLoop at h ⊢
                by_cases hl2 : 0 < left - (20 + padded len)
                · rw [if_pos hl2] at h
                  cases h
                · rw [if_neg hl2] at h ⊢
                  exact h
    · rw [if_neg hl] at h ⊢
      exact h

/-! ### What a message says, apart from the tables -/

/-- The entry that `decap` takes from the memory, if it accepts one. -/
def item (wf : Nat → List Nat → Bool) (b : List Nat) : Option (Option Ent) :=
  match get16 b, get16 (b.drop 2) with
  | some typ, some len =>
    if b.length < 20 then none
    else if typ = 1 ∧ 127 < len then some none
    else
      match cstr (b.drop 20) with
      | none => none
      | some s =>
        if wellformed wf typ s && goodName len s then some (some ⟨typ, len, s, (b.drop 4).take 16⟩)
        else some none
  | _, _ => none

/-- The effect of an accepted entry on a list of names. -/
def put (v6 : Bool) (x : Option Ent) (to : List Ent) : List Ent × Bool :=
  match x with
  | none => (to, false)
  | some e => addName v6 e.typ e.len e.name e.ip to

theorem decap_item (wf : Nat → List Nat → Bool) (v6 : Bool) (b : List Nat) (to : List Ent) :
    decap wf v6 b to = (item wf b).map fun x => put v6 x to := by
  unfold decap item
  cases h1 : get16 b with
  | none => rfl
  | some typ =>
    cases h2 : get16 (b.drop 2) with
    | none => rfl
    | some len =>
      simp only []
      by_cases h3 : b.length < 20
      · rw [if_pos h3, if_pos h3]; rfl
      · rw [if_neg h3, if_neg h3]
        by_cases h4 : typ = 1 ∧ 127 < len
        · rw [if_pos h4, if_pos h4]; rfl
        · rw [if_neg h4, if_neg h4]
          cases h5 : cstr (b.drop 20) with
          | none => rfl
          | some s =>
            simp only []
            by_cases h6 : (wellformed wf typ s && goodName len s) = true
            · rw [if_pos h6, if_pos h6]; rfl
            · rw [if_neg h6, if_neg h6]; rfl

/-- The effect of one entry of a message on the tables. -/
def learn (v6 : Bool) (o : List Nat) (x : Nat × Option Ent) (st : St) : St :=
  { db := fun t o' => if t = x.1 ∧ o' = o then some (put v6 x.2 ((st.db x.1 o).getD [])).1
                      else st.db t o'
    chg := fun t => if t = x.1 ∧ (put v6 x.2 ((st.db x.1 o).getD [])).2 = true then true
                    else st.chg t }

theorem insertName_item (wf : Nat → List Nat → Bool) (v6 : Bool) (typ : Nat) (o b : List Nat)
    (st : St) :
    insertName wf v6 typ o b st = (item wf b).map fun x => learn v6 o (typ, x) st := by
  unfold insertName
  rw [decap_item]
  cases item wf b with
  | none => rfl
  | some x => rfl

/-- The entries of a message in order. -/
def items (wf : Nat → List Nat → Bool) : Nat → Int → List Nat → Option (List (Nat × Option Ent))
  | 0, _, _ => some []
  | i + 1, left, b =>
    if 0 < left then
      match get16 b, get16 (b.drop 2) with
      | some typ, some len =>
        match items wf i (left - (20 + padded len)) (b.drop (20 + padded len)) with
        | none => none
        | some r =>
          if typ ≤ 4 then (item wf b).map fun x => (typ, x) :: r else some r
      | _, _ => none
    else some []

def learnAll (v6 : Bool) (o : List Nat) : List (Nat × Option Ent) → St → St
  | [], st => st
  | x :: r, st => learnAll v6 o r (learn v6 o x st)

theorem updLoop_items (wf : Nat → List Nat → Bool) (v6 : Bool) (o : List Nat) (n : Nat) (left : Int)
    (b : List Nat) (st : St) :
    updLoop wf v6 o n left b st = (items wf n left b).map fun l => learnAll v6 o l st := by
  induction n generalizing left b st with
  | zero => rfl
  | succ i ih =>
    unfold updLoop items
    by_cases hl : 0 < left
    · rw [if_pos hl, if_pos hl]
      cases h1 : get16 b with
      | none => rfl
      | some typ =>
        cases h2 : get16 (b.drop 2) with
        | none =>
          simp only []
          cases (if typ ≤ 4 then insertName wf v6 typ o b st else some st) <;> rfl
        | some len =>
          simp only []
          by_cases ht : typ ≤ 4
          · rw [if_pos ht, insertName_item]
            cases hi : item wf b with
            | none =>
              simp only [Option.map_none]
              cases items wf i (left - (20 + padded len)) (b.drop (20 + padded len)) with
              | none => rfl
              | some r => simp only [if_pos ht]; rfl
            | some x =>
              simp only [Option.map_some]
              rw [ih]
              cases items wf i (left - (20 + padded len)) (b.drop (20 + padded len)) with
              | none => rfl
              | some r => simp only [if_pos ht]; rfl
          · rw [if_neg ht]
            simp only []
            rw [ih]
            cases items wf i (left - (20 + padded len)) (b.drop (20 + padded len)) with
            | none => rfl
            | some r => simp only [if_neg ht]
    · rw [if_neg hl, if_neg hl]; rfl

/-- The entries of a whole message. -/
def msgItems (wf : Nat → List Nat → Bool) (size : Nat) (b : List Nat) :
    Option (List (Nat × Option Ent)) :=
  match get16 b, get16 (b.drop 2) with
  | some ver, some n =>
    if ver = 1 then items wf n ((size : Int) - 8) (b.drop 4) else some []
  | some ver, none => if ver = 1 then none else some []
  | none, _ => none

theorem update_items (wf : Nat → List Nat → Bool) (v6 : Bool) (o : List Nat) (size : Nat)
    (b : List Nat) (st : St) :
    update wf v6 o size b st = (msgItems wf size b).map fun l => learnAll v6 o l st := by
  unfold update msgItems
  cases h1 : get16 b with
  | none => rfl
  | some ver =>
    cases h2 : get16 (b.drop 2) with
    | none =>
      simp only []
      by_cases hv : ver = 1
      · rw [if_pos hv, if_pos hv]; rfl
      · rw [if_neg hv, if_neg hv]; rfl
    | some n =>
      simp only []
      by_cases hv : ver = 1
      · rw [if_pos hv, if_pos hv, updLoop_items]
      · rw [if_neg hv, if_neg hv]; rfl

/-- The names of one type after a message. -/
def putAll (v6 : Bool) : List (Option Ent) → List Ent → List Ent
  | [], to => to
  | x :: r, to => putAll v6 r (put v6 x to).1

theorem learnAll_other (v6 : Bool) (o : List Nat) (l : List (Nat × Option Ent)) (st : St) (t : Nat)
    (o' : List Nat) (h : o' ≠ o ∨ ∀ x ∈ l, x.1 ≠ t) : (learnAll v6 o l st).db t o' = st.db t o' := by
  induction l generalizing st with
  | nil => rfl
  | cons x r ih =>
    unfold learnAll
    rw [ih (learn v6 o x st) (h.imp id fun hx y hy => hx y (List.mem_cons_of_mem _ hy))]
    show (if t = x.1 ∧ o' = o then _ else _) = _
    have hne : ¬ (t = x.1 ∧ o' = o) := by
      rintro ⟨h1, h2⟩
      rcases h with h | h
      · exact h h2
      · exact h x List.mem_cons_self h1.symm
    rw [if_neg hne]

theorem learnAll_db (v6 : Bool) (o : List Nat) (l : List (Nat × Option Ent)) (st : St) (t : Nat) :
    ((learnAll v6 o l st).db t o).getD [] =
      putAll v6 ((l.filter fun x => x.1 == t).map (·.2)) ((st.db t o).getD []) := by
  induction l generalizing st with
  | nil => rfl
  | cons x r ih =>
    unfold learnAll
    rw [ih]
    by_cases hx : x.1 = t
    · have hf : List.filter (fun x => x.1 == t) (x :: r) =
          x :: List.filter (fun x => x.1 == t) r := List.filter_cons_of_pos (by
            show (x.1 == t) = true
            rw [hx]; exact beq_self_eq_true t)
      rw [hf, List.map_cons]
      show putAll v6 _ _ = putAll v6 _ (put v6 x.2 ((st.db t o).getD [])).1
      have hd : ((learn v6 o x st).db t o) = some (put v6 x.2 ((st.db t o).getD [])).1 := by
        show (if t = x.1 ∧ o = o then _ else _) = _
        rw [if_pos ⟨hx.symm, rfl⟩, hx]
      rw [hd]
      rfl
    · have hf : List.filter (fun x => x.1 == t) (x :: r) =
          List.filter (fun x => x.1 == t) r := List.filter_cons_of_neg (by
            show ¬ (x.1 == t) = true
            intro hh; exact hx (eq_of_beq hh))
      rw [hf]
      have hd : ((learn v6 o x st).db t o) = st.db t o := by
        show (if t = x.1 ∧ o = o then _ else _) = _
        rw [if_neg (fun hh => hx hh.1.symm)]
      rw [hd]

theorem learnAll_isSome (v6 : Bool) (o : List Nat) (l : List (Nat × Option Ent)) (st : St) (t : Nat)
    (h : ∃ x ∈ l, x.1 = t) : ((learnAll v6 o l st).db t o).isSome = true := by
  induction l generalizing st with
  | nil => obtain ⟨x, hx, _⟩ := h; cases hx
  | cons x r ih =>
    unfold learnAll
    by_cases hr : ∃ y ∈ r, y.1 = t
    · exact ih _ hr
    · rw [learnAll_other v6 o r _ t o (Or.inr fun y hy hh => hr ⟨y, hy, hh⟩)]
      obtain ⟨y, hy, hyt⟩ := h
      rcases List.mem_cons.1 hy with rfl | hy
      · show (if t = y.1 ∧ o = o then _ else _ : Option (List Ent)).isSome = true
        rw [if_pos ⟨hyt.symm, rfl⟩]; rfl
      · exact absurd ⟨y, hy, hyt⟩ hr

/-- What the accepted entries of a message look like. -/
theorem item_spec {wf : Nat → List Nat → Bool} {b : List Nat} {e : Ent}
    (h : item wf b = some (some e)) :
    get16 b = some e.typ ∧ e.len = e.name.length ∧ e.name.length ≤ 127 ∧ (∀ c ∈ e.name, c ≠ 0) ∧
    92 ∉ e.name ∧ 39 ∉ e.name ∧ e.ip.length = 16 ∧ wellformed wf e.typ e.name = true := by
  unfold item at h
  cases h1 : get16 b with
  | none => rw [h1] at h; cases h
  | some typ =>
    cases h2 : get16 (b.drop 2) with
    | none => rw [h1, h2] at h; cases h
    | some len =>
      rw [h1, h2] at h
      simp only [] at h
      by_cases h3 : b.length < 20
      · rw [if_pos h3] at h; cases h
      · rw [if_neg h3] at h
        by_cases h4 : typ = 1 ∧ 127 < len
        · rw [if_pos h4] at h; cases h
        · rw [if_neg h4] at h
          cases h5 : cstr (b.drop 20) with
          | none => rw [h5] at h; cases h
          | some s =>
            rw [h5] at h
            simp only [] at h
            by_cases h6 : (wellformed wf typ s && goodName len s) = true
            · rw [if_pos h6] at h
              cases h
              rw [Bool.and_eq_true] at h6
              obtain ⟨hw, hg⟩ := h6
              unfold goodName at hg
              simp only [Bool.and_eq_true, decide_eq_true_eq, Bool.not_eq_true',
                List.contains_eq_mem, decide_eq_false_iff_not] at hg
              obtain ⟨⟨⟨g1, g2⟩, g3⟩, g4⟩ := hg
              refine ⟨rfl, g2.symm, by show s.length ≤ 127; omega, (cstr_spec h5).1, g3, g4, ?_, hw⟩
              show ((b.drop 4).take 16).length = 16
              rw [List.length_take, List.length_drop]
              omega
            · rw [if_neg h6] at h; cases h

theorem items_spec {wf : Nat → List Nat → Bool} (n : Nat) {left : Int} {b : List Nat}
    {l : List (Nat × Option Ent)} (h : items wf n left b = some l) :
    ∀ x ∈ l, x.1 ≤ 4 ∧ ∀ e, x.2 = some e → ∃ b', get16 b' = some x.1 ∧ item wf b' = some (some e) := by
  induction n generalizing left b l with
  | zero => cases h; exact fun x hx => (by cases hx)
  | succ i ih =>
    unfold items at h
    by_cases hl : 0 < left
    · rw [if_pos hl] at h
      cases h1 : get16 b with
      | none => rw [h1] at h; cases h
      | some typ =>
        cases h2 : get16 (b.drop 2) with
        | none => rw [h1, h2] at h; cases h
        | some len =>
          rw [h1, h2] at h
          simp only [] at h
          cases h3 : items wf i (left - (20 + padded len)) (b.drop (20 + padded len)) with
          | none => rw [h3] at h; cases h
          | some r =>
            rw [h3] at h
            simp only [] at h
            by_cases ht : typ ≤ 4
            · rw [if_pos ht] at h
              cases h4 : item wf b with
              | none => rw [h4] at h; cases h
              | some x =>
                rw [h4] at h
                cases h
                intro y hy
                rcases List.mem_cons.1 hy with rfl | hy
                · exact ⟨ht, fun e he => ⟨b, h1, by rw [h4]; exact congrArg some he⟩⟩
                · exact ih h3 y hy
            · rw [if_neg ht] at h
              cases h
              exact ih h3
    · rw [if_neg hl] at h
      cases h
      exact fun x hx => (by cases hx)

theorem msgItems_spec {wf : Nat → List Nat → Bool} {size : Nat} {b : List Nat}
    {l : List (Nat × Option Ent)} (h : msgItems wf size b = some l) :
    ∀ x ∈ l, x.1 ≤ 4 ∧ ∀ e, x.2 = some e → ∃ b', get16 b' = some x.1 ∧ item wf b' = some (some e) := by
  unfold msgItems at h
  cases h1 : get16 b with
  | none => rw [h1] at h; cases h
  | some ver =>
    cases h2 : get16 (b.drop 2) with
    | none =>
      rw [h1, h2] at h
      simp only [] at h
      by_cases hv : ver = 1
      · rw [if_pos hv] at h; cases h
      · rw [if_neg hv] at h; cases h; exact fun x hx => (by cases hx)
    | some n =>
      rw [h1, h2] at h
      simp only [] at h
      by_cases hv : ver = 1
      · rw [if_pos hv] at h; exact items_spec n h
      · rw [if_neg hv] at h; cases h; exact fun x hx => (by cases hx)

/-! ### The loop over the saved entries -/

/-- For names, forwarders and services a return inside the loop leaves the list as it is. -/
theorem scan_keep {v6 : Bool} {typ len : Nat} {s ip : List Nat} (h3 : typ ≠ 3) (l : List Ent)
    {x : List Ent × Bool} (h : scan v6 typ len s ip l = some x) : x = (l, false) := by
  induction l generalizing x with
  | nil => cases h
  | cons e r ih =>
    unfold scan at h
    by_cases c1 : (typ = 0 ∨ typ = 2) ∧ strncmpEq e.name s len = true
    · rw [if_pos c1] at h; cases h; rfl
    · rw [if_neg c1] at h
      by_cases c2 : typ = 1 ∧ ipEq v6 e.ip ip = true
      · rw [if_pos c2] at h; cases h; rfl
      · rw [if_neg c2, if_neg h3] at h
        cases h4 : scan v6 typ len s ip r with
        | none => rw [h4] at h; cases h
        | some y =>
          rw [h4] at h
          have hy := ih h4
          subst hy
          cases h
          rfl

/-- An entry of the list counts as the received one. -/
def Same (v6 : Bool) (typ len : Nat) (s ip : List Nat) (e : Ent) : Prop :=
  ((typ = 0 ∨ typ = 2) ∧ strncmpEq e.name s len = true) ∨ (typ = 1 ∧ ipEq v6 e.ip ip = true)

theorem scan_none {v6 : Bool} {typ len : Nat} {s ip : List Nat} (h3 : typ ≠ 3) (l : List Ent) :
    scan v6 typ len s ip l = none ↔ ∀ e ∈ l, ¬ Same v6 typ len s ip e := by
  induction l with
  | nil => exact ⟨fun _ e he => (by cases he), fun _ => rfl⟩
  | cons e r ih =>
    unfold scan
    by_cases c1 : (typ = 0 ∨ typ = 2) ∧ strncmpEq e.name s len = true
    · rw [if_pos c1]
      exact ⟨fun h => (by cases h), fun h => absurd (Or.inl c1) (h e List.mem_cons_self)⟩
    · rw [if_neg c1]
      by_cases c2 : typ = 1 ∧ ipEq v6 e.ip ip = true
      · rw [if_pos c2]
        exact ⟨fun h => (by cases h), fun h => absurd (Or.inr c2) (h e List.mem_cons_self)⟩
      · rw [if_neg c2, if_neg h3]
        constructor
        · intro h
          have hn : scan v6 typ len s ip r = none := by
            cases h4 : scan v6 typ len s ip r with
            | none => rfl
            | some y => rw [h4] at h; cases h
          intro y hy
          rcases List.mem_cons.1 hy with rfl | hy
          · exact fun hs => hs.elim c1 c2
          · exact ih.1 hn y hy
        · intro h
          rw [ih.2 (fun y hy => h y (List.mem_cons_of_mem _ hy))]

/-- For all types but positions: the list is kept, or the entry is put in front of it. -/
theorem addName_cases {v6 : Bool} {typ len : Nat} {s ip : List Nat} (h3 : typ ≠ 3) (l : List Ent) :
    ((∃ e ∈ l, Same v6 typ len s ip e) ∧ addName v6 typ len s ip l = (l, false)) ∨
    ((∀ e ∈ l, ¬ Same v6 typ len s ip e) ∧
      addName v6 typ len s ip l = (⟨typ, len, s, ip⟩ :: l, true)) := by
  unfold addName
  cases h : scan v6 typ len s ip l with
  | none => exact Or.inr ⟨(scan_none h3 l).1 h, rfl⟩
  | some x =>
    left
    refine ⟨Classical.byContradiction fun hn => ?_, scan_keep h3 l h⟩
    have := (scan_none h3 l (v6 := v6) (len := len) (s := s) (ip := ip)).2
      (fun e he hs => hn ⟨e, he, hs⟩)
    rw [this] at h
    cases h

theorem ipEq_refl (v6 : Bool) (a : List Nat) : ipEq v6 a a = true := by
  unfold ipEq; exact beq_self_eq_true _

theorem strncmpEq_refl (a : List Nat) (n : Nat) : strncmpEq a a n = true := by
  unfold strncmpEq; exact beq_self_eq_true _

/-- After an entry of type name, forwarder or service was processed it is found. -/
theorem addName_same {v6 : Bool} {typ len : Nat} {s ip : List Nat} (ht : typ < 3) (l : List Ent) :
    ∃ e ∈ (addName v6 typ len s ip l).1, Same v6 typ len s ip e := by
  rcases addName_cases (v6 := v6) (typ := typ) (len := len) (s := s) (ip := ip) (by omega) l with
    ⟨h, h2⟩ | ⟨_, h2⟩
  · rw [h2]; exact h
  · rw [h2]
    refine ⟨_, List.mem_cons_self, ?_⟩
    by_cases h1 : typ = 1
    · exact Or.inr ⟨h1, ipEq_refl _ _⟩
    · exact Or.inl ⟨by omega, strncmpEq_refl _ _⟩

end Verif.Name
