import Verif.ProcModel

/-!
# Lemmas on the kernel settings: one file at a time
-/

namespace Verif.Proc

/-- What `writeToProc` makes of the content of one file. -/
def W (cur : Option Nat) (v : Nat) (ok : Bool) : Option Nat :=
  match cur with
  | none => none
  | some rv => if ok = true ∧ rv ≠ v ∧ v ≠ 0 then some v else some rv

theorem wr_at (f : Files) (k : Key) (v : Nat) (ok : Bool) (k' : Key) :
    wr f k v ok k' = if k' = k then W (f k) v ok else f k' := by
  unfold wr W
  by_cases h : k' = k
  · subst h
    rw [if_pos rfl]
    cases hf : f k' with
    | none => simp only [hf]
    | some rv =>
      simp only []
      by_cases h2 : ok = true ∧ rv ≠ v ∧ v ≠ 0
      · rw [if_pos h2, if_pos h2]
        unfold set
        rw [if_pos rfl]
      · rw [if_neg h2, if_neg h2, hf]
  · rw [if_neg h]
    cases hf : f k with
    | none => rfl
    | some rv =>
      simp only []
      by_cases h2 : ok = true ∧ rv ≠ v ∧ v ≠ 0
      · rw [if_pos h2]
        unfold set
        rw [if_neg h]
      · rw [if_neg h2]

/-- What `restoreProc` makes of the content of one file. -/
def Rs (t : Nat) (cur : Option Nat) (r : Nat) : Option Nat := if r = t then cur else W cur r true

theorem restore_at (f : Files) (k : Key) (o t : Nat) (k' : Key) :
    restore f k o t true k' = if k' = k then Rs t (f k) o else f k' := by
  unfold restore Rs
  by_cases h : o = t
  · rw [if_pos h, if_pos h]
    by_cases h2 : k' = k
    · rw [if_pos h2, h2]
    · rw [if_neg h2]
  · rw [if_neg h, if_neg h, wr_at]

/-- The relation between a file, its content without the daemon, and the values that are saved for it. -/
structure D (cur base : Option Nat) (rs : List Nat) (t : Nat) : Prop where
  gone : cur = none ↔ base = none
  val : cur ≠ none → ∀ r ∈ rs, r = 0 ∨ r = t ∨ some r = base
  diff : cur ≠ base → cur = some t ∧ ∃ r ∈ rs, some r = base

theorem D.refl (cur : Option Nat) (t : Nat) (rs : List Nat) (h : ∀ r ∈ rs, r = 0) : D cur cur rs t :=
  ⟨Iff.rfl, fun _ r hr => Or.inl (h r hr), fun h => (h rfl).elim⟩

theorem D.zero {cur base rs t} (h : D cur base rs t) : D cur base (0 :: rs) t := by
  refine ⟨h.gone, fun hc r hr => ?_, fun hd => ?_⟩
  · rcases List.mem_cons.mp hr with rfl | hr
    · exact Or.inl rfl
    · exact h.val hc r hr
  · obtain ⟨a, r, hr, b⟩ := h.diff hd
    exact ⟨a, r, List.mem_cons_of_mem _ hr, b⟩

/-- The value that is saved when a file is written. -/
def O (cur : Option Nat) (ok : Bool) (d : Nat) : Nat :=
  match cur with
  | none => d
  | some rv => if ok then rv else d

/-- A file is written and its value is saved. -/
theorem D.write {cur base rs t} (h : D cur base rs t) (ht : t ≠ 0) (ok : Bool) :
    D (W cur t ok) base (O cur ok 0 :: rs) t := by
  cases cur with
  | none =>
    have hb := h.gone.mp rfl
    subst hb
    exact ⟨Iff.rfl, fun hc => (hc rfl).elim, fun hd => (hd rfl).elim⟩
  | some rv =>
    unfold W O
    simp only []
    cases ok with
    | false =>
      rw [if_neg (fun h => Bool.noConfusion h.1)]
      simp only [Bool.false_eq_true, if_false]
      exact h.zero
    | true =>
      simp only [if_true, true_and]
      by_cases hv : rv = t
      · rw [if_neg (fun h => h.1 hv)]
        refine ⟨h.gone, fun hc r hr => ?_, fun hd => ?_⟩
        · rcases List.mem_cons.mp hr with rfl | hr
          · exact Or.inr (Or.inl hv)
          · exact h.val (by simp) r hr
        · obtain ⟨a, r, hr, b⟩ := h.diff hd
          exact ⟨a, r, List.mem_cons_of_mem _ hr, b⟩
      · rw [if_pos ⟨hv, ht⟩]
        have he : (some rv : Option Nat) = base := by
          by_cases hd : some rv = base
          · exact hd
          · have := (h.diff hd).1
            exact (hv (Option.some.inj this)).elim
        refine ⟨?_, fun hc r hr => ?_, fun _ => ⟨rfl, rv, List.mem_cons_self, he⟩⟩
        · rw [← he]
          simp
        · rcases List.mem_cons.mp hr with rfl | hr
          · exact Or.inr (Or.inr he)
          · exact h.val (by simp) r hr

/-- Restoring all saved values gives the content without the daemon. -/
theorem D.restored {base t} (hb : base ≠ some 0) :
    ∀ (rs : List Nat) (cur : Option Nat), D cur base rs t → rs.foldl (Rs t) cur = base := by
  intro rs
  induction rs with
  | nil =>
    intro cur h
    by_cases hd : cur = base
    · exact hd
    · obtain ⟨-, r, hr, -⟩ := h.diff hd
      cases hr
  | cons r rs ih =>
    intro cur h
    rw [List.foldl_cons]
    apply ih
    cases cur with
    | none =>
      have hn := h.gone.mp rfl
      subst hn
      have : Rs t none r = none := by
        unfold Rs W
        by_cases h : r = t
        · rw [if_pos h]
        · rw [if_neg h]
      rw [this]
      exact ⟨Iff.rfl, fun hc => (hc rfl).elim, fun hd => (hd rfl).elim⟩
    | some v =>
      have hval := h.val (by simp)
      unfold Rs W
      simp only [true_and]
      by_cases hrt : r = t
      · rw [if_pos hrt]
        refine ⟨h.gone, fun hc x hx => hval x (List.mem_cons_of_mem _ hx), fun hd => ?_⟩
        obtain ⟨a, x, hx, b⟩ := h.diff hd
        rcases List.mem_cons.mp hx with rfl | hx
        · exact (hd (by rw [a, ← b, hrt])).elim
        · exact ⟨a, x, hx, b⟩
      · rw [if_neg hrt]
        by_cases hr0 : r = 0
        · rw [if_neg (fun h => h.2 hr0)]
          refine ⟨h.gone, fun hc x hx => hval x (List.mem_cons_of_mem _ hx), fun hd => ?_⟩
          obtain ⟨a, x, hx, b⟩ := h.diff hd
          rcases List.mem_cons.mp hx with rfl | hx
          · exact (hb (by rw [← b, hr0])).elim
          · exact ⟨a, x, hx, b⟩
        · have hrb : some r = base := by
            rcases hval r List.mem_cons_self with h | h | h
            · exact (hr0 h).elim
            · exact (hrt h).elim
            · exact h
          have : (if v ≠ r ∧ r ≠ 0 then some r else some v) = base := by
            by_cases hv : v = r
            · rw [if_neg (fun h => h.1 hv), hv, hrb]
            · rw [if_pos ⟨hv, hr0⟩, hrb]
          rw [this]
          exact ⟨Iff.rfl, fun hc x hx => hval x (List.mem_cons_of_mem _ hx), fun hd => (hd rfl).elim⟩

/-- The saved values of a device. -/
def redirects (n : Nat) (l : List If) : List Nat := (l.filter fun i => decide (i.name = n)).map If.redirect

/-- The saved values of a device. -/
def spoofs (n : Nat) (l : List If) : List Nat := (l.filter fun i => decide (i.name = n)).map If.spoof

theorem restoreIfs_redirect (n : Nat) : ∀ (l : List If) (f : Files),
    restoreIfs (fun _ => true) f l (.devRedirect n) =
      (redirects n l).foldl (Rs Proc.zero) (f (.devRedirect n)) := by
  intro l
  induction l with
  | nil => intro f; rfl
  | cons i is ih =>
    intro f
    unfold restoreIfs
    rw [ih, restore_at, if_neg (by intro h; cases h), restore_at]
    unfold redirects
    by_cases h : i.name = n
    · rw [List.filter_cons_of_pos (by simp [h]), List.map_cons, List.foldl_cons, if_pos (by rw [h]), h]
    · rw [List.filter_cons_of_neg (by simp [h]), if_neg (by intro h2; injection h2 with h2; exact h h2.symm)]

theorem restoreIfs_spoof (n : Nat) : ∀ (l : List If) (f : Files),
    restoreIfs (fun _ => true) f l (.devSpoof n) =
      (spoofs n l).foldl (Rs Proc.zero) (f (.devSpoof n)) := by
  intro l
  induction l with
  | nil => intro f; rfl
  | cons i is ih =>
    intro f
    unfold restoreIfs
    rw [ih, restore_at, restore_at, if_neg (c := _ = Key.devRedirect _) (by intro h; cases h)]
    unfold spoofs
    by_cases h : i.name = n
    · rw [List.filter_cons_of_pos (by simp [h]), List.map_cons, List.foldl_cons, if_pos (by rw [h]), h]
    · rw [List.filter_cons_of_neg (by simp [h]), if_neg (by intro h2; injection h2 with h2; exact h h2.symm), restore_at,
        if_neg (by intro h; cases h)]

theorem restoreIfs_other (k : Key) (h1 : ∀ n, k ≠ .devRedirect n) (h2 : ∀ n, k ≠ .devSpoof n) :
    ∀ (l : List If) (f : Files), restoreIfs (fun _ => true) f l k = f k := by
  intro l
  induction l with
  | nil => intro f; rfl
  | cons i is ih =>
    intro f
    unfold restoreIfs
    rw [ih, restore_at, if_neg (h2 _), restore_at, if_neg (h1 _)]

end Verif.Proc
