import Verif.MprModel
import Mathlib.Data.List.Perm.Subperm

/-! Helper lemmas for the MPR selection without link quality. -/
namespace Verif.Mpr

theorem putN_nbr (s : St) (p q : Nat) (n : Nbr) :
    (s.putN p n).nbr q = if q = p then n else s.nbr q := rfl
theorem putN_two (s : St) (p t : Nat) (n : Nbr) : (s.putN p n).two t = s.two t := rfl
theorem putT_nbr (s : St) (t q : Nat) (n : Two) : (s.putT t n).nbr q = s.nbr q := rfl
theorem putT_two (s : St) (t u : Nat) (n : Two) :
    (s.putT t n).two u = if u = t then n else s.two u := rfl

/-- The fields the selection never writes. -/
structure Static (s s' : St) : Prop where
  sym : ∀ p, (s'.nbr p).sym = (s.nbr p).sym
  will : ∀ p, (s'.nbr p).will = (s.nbr p).will
  list : ∀ p, (s'.nbr p).list = (s.nbr p).list
  addr : ∀ t, (s'.two t).addr = (s.two t).addr
  pointer : ∀ t, (s'.two t).pointer = (s.two t).pointer
  nblist : ∀ t, (s'.two t).nblist = (s.two t).nblist

theorem Static.refl (s : St) : Static s s :=
  ⟨fun _ => rfl, fun _ => rfl, fun _ => rfl, fun _ => rfl, fun _ => rfl, fun _ => rfl⟩

theorem Static.trans {a b c : St} (h : Static a b) (k : Static b c) : Static a c :=
  ⟨fun p => (k.sym p).trans (h.sym p), fun p => (k.will p).trans (h.will p),
   fun p => (k.list p).trans (h.list p), fun p => (k.addr p).trans (h.addr p),
   fun p => (k.pointer p).trans (h.pointer p), fun p => (k.nblist p).trans (h.nblist p)⟩

theorem putN_static (s : St) (p : Nat) (n : Nbr) (h1 : n.sym = (s.nbr p).sym)
    (h2 : n.will = (s.nbr p).will) (h3 : n.list = (s.nbr p).list) : Static s (s.putN p n) := by
  refine ⟨?_, ?_, ?_, fun _ => rfl, fun _ => rfl, fun _ => rfl⟩ <;> intro q <;> rw [putN_nbr] <;>
    split
  · next h => rw [h, h1]
  · rfl
  · next h => rw [h, h2]
  · rfl
  · next h => rw [h, h3]
  · rfl

theorem putT_static (s : St) (t : Nat) (n : Two) (h1 : n.addr = (s.two t).addr)
    (h2 : n.pointer = (s.two t).pointer) (h3 : n.nblist = (s.two t).nblist) :
    Static s (s.putT t n) := by
  refine ⟨fun _ => rfl, fun _ => rfl, fun _ => rfl, ?_, ?_, ?_⟩ <;> intro q <;> rw [putT_two] <;>
    split
  · next h => rw [h, h1]
  · rfl
  · next h => rw [h, h2]
  · rfl
  · next h => rw [h, h3]
  · rfl

theorem foldl_static {α β : Type} (g : β → St) (f : β → α → β)
    (h : ∀ b x, Static (g b) (g (f b x))) : ∀ (l : List α) (b : β),
    Static (g b) (g (l.foldl f b)) := by
  intro l
  induction l with
  | nil => intro b; exact Static.refl _
  | cons x l ih => intro b; exact (h b x).trans (ih _)

theorem Static.isSymNbr {e : Env} {s s' : St} (h : Static s s') (t : Nat) :
    isSymNbr e s' t = isSymNbr e s t := by
  unfold Mpr.isSymNbr
  rw [h.addr]
  split
  · rfl
  · rw [h.sym]

/-- The number of strict two-hop neighbours a neighbour lists. -/
def n2 (e : Env) (s : St) (p : Nat) : Nat :=
  ((s.nbr p).list.filter fun t => !isSymNbr e s t).length

theorem Static.n2 {e : Env} {s s' : St} (h : Static s s') (p : Nat) :
    n2 e s' p = n2 e s p := by
  unfold Mpr.n2
  rw [h.list]
  congr 1
  apply List.filter_congr
  intro t _
  rw [h.isSymNbr]

/-! ### clearing -/

theorem clearCount_static (s : St) (t : Nat) : Static s (clearCount s t) :=
  putT_static s t _ rfl rfl rfl

theorem clear1_static (s : St) (p : Nat) : Static s (clear1 s p) := by
  unfold clear1
  simp only
  split
  · refine Static.trans ?_ (foldl_static id clearCount clearCount_static _ _)
    apply putN_static <;> rfl
  · exact foldl_static id clearCount clearCount_static _ _

theorem clearMprs_static (e : Env) (s : St) : Static s (clearMprs e s) :=
  foldl_static id clear1 clear1_static _ _

theorem clearCount_fold_nbr : ∀ (l : List Nat) (s : St), (l.foldl clearCount s).nbr = s.nbr := by
  intro l
  induction l with
  | nil => intro s; rfl
  | cons t l ih => intro s; rw [List.foldl_cons, ih]; rfl

theorem clearCount_fold_covered : ∀ (l : List Nat) (s : St) (t : Nat),
    ((l.foldl clearCount s).two t).covered = if t ∈ l then 0 else (s.two t).covered := by
  intro l
  induction l with
  | nil => intro s t; simp
  | cons u l ih =>
    intro s t
    rw [List.foldl_cons, ih]
    by_cases h1 : t ∈ l
    · simp [h1]
    · by_cases h2 : t = u
      · simp [h2, clearCount, putT_two]
      · simp [h1, h2, clearCount, putT_two]

theorem clear1_nbr (s : St) (p q : Nat) :
    (clear1 s p).nbr q = if q = p then
      { s.nbr p with isMpr := false, wasMpr := (s.nbr p).wasMpr || (s.nbr p).isMpr }
      else s.nbr q := by
  unfold clear1
  simp only
  rw [clearCount_fold_nbr]
  split
  · next h => rw [putN_nbr]; simp [h]
  · next h =>
    by_cases hq : q = p
    · subst hq
      rw [if_pos rfl]
      simp only [Bool.not_eq_true] at h
      cases hn : s.nbr q
      rw [hn] at h
      simp only at h
      subst h
      simp
    · simp [hq]

theorem clear1_covered (s : St) (p t : Nat) :
    ((clear1 s p).two t).covered = if t ∈ (s.nbr p).list then 0 else (s.two t).covered := by
  unfold clear1
  simp only
  rw [clearCount_fold_covered]
  congr 1
  split <;> rfl

theorem clearMprs_nbr : ∀ (table : List Nat) (s : St) (q : Nat),
    (table.foldl clear1 s).nbr q = if q ∈ table then
      { s.nbr q with isMpr := false, wasMpr := (s.nbr q).wasMpr || (s.nbr q).isMpr }
      else s.nbr q := by
  intro table
  induction table with
  | nil => intro s q; simp
  | cons p table ih =>
    intro s q
    rw [List.foldl_cons, ih, clear1_nbr]
    by_cases h1 : q = p
    · subst h1
      by_cases h2 : q ∈ table <;> simp [h2]
    · simp [h1]

theorem clearMprs_covered : ∀ (table : List Nat) (s : St) (t : Nat),
    (∃ p ∈ table, t ∈ (s.nbr p).list) → ((table.foldl clear1 s).two t).covered = 0 := by
  intro table
  have keep : ∀ (table : List Nat) (s : St) (t : Nat), (s.two t).covered = 0 →
      ((table.foldl clear1 s).two t).covered = 0 := by
    intro table
    induction table with
    | nil => intro s t h; exact h
    | cons p table ih =>
      intro s t h
      rw [List.foldl_cons]
      apply ih
      rw [clear1_covered]
      split
      · rfl
      · exact h
  induction table with
  | nil => rintro s t ⟨p, hp, _⟩; cases hp
  | cons p table ih =>
    rintro s t ⟨q, hq, ht⟩
    rw [List.foldl_cons]
    rcases List.mem_cons.1 hq with rfl | hq
    · apply keep
      rw [clear1_covered, if_pos ht]
    · apply ih
      exact ⟨q, hq, by rw [(clear1_static s p).list]; exact ht⟩

/-! ### counting -/

theorem clearProcessed_static (e : Env) (s : St) : Static s (clearProcessed e s) :=
  foldl_static id (fun s t => s.putT t { s.two t with processed := false })
    (fun s t => by apply putT_static <;> rfl) _ _

theorem clearProcessed_eq : ∀ (l : List Nat) (s : St),
    (∀ q, (l.foldl (fun s t => s.putT t { s.two t with processed := false }) s).nbr q = s.nbr q) ∧
    ∀ t, ((l.foldl (fun s t => s.putT t { s.two t with processed := false }) s).two t).covered =
        (s.two t).covered ∧
      (t ∈ l → ((l.foldl (fun s t => s.putT t { s.two t with processed := false }) s).two
        t).processed = false) := by
  intro l
  induction l with
  | nil => intro s; exact ⟨fun _ => rfl, fun t => ⟨rfl, by simp⟩⟩
  | cons u l ih =>
    intro s
    rw [List.foldl_cons]
    obtain ⟨h1, h2⟩ := ih (s.putT u { s.two u with processed := false })
    refine ⟨fun q => (h1 q).trans rfl, fun t => ⟨?_, ?_⟩⟩
    · rw [(h2 t).1, putT_two]; split
      · next h => rw [h]
      · rfl
    · intro ht
      by_cases hl : t ∈ l
      · exact (h2 t).2 hl
      · rcases List.mem_cons.1 ht with h | h
        · subst h
          have keep : ∀ (l : List Nat) (s : St), (s.two t).processed = false →
              ((l.foldl (fun s t => s.putT t { s.two t with processed := false }) s).two
                t).processed = false := by
            intro l
            induction l with
            | nil => intro s h; exact h
            | cons v l ih2 =>
              intro s h
              rw [List.foldl_cons]
              apply ih2
              rw [putT_two]; split
              · rfl
              · exact h
          apply keep
          rw [putT_two]; simp
        · exact absurd h hl

theorem countLink_static (e : Env) (a : St × Cnt) (t : Nat) :
    Static a.1 (countLink e a t).1 := by
  unfold countLink
  split
  · exact Static.refl _
  · simp only
    split
    · exact Static.refl _
    · exact putT_static _ _ _ rfl rfl rfl

theorem countNbr_static (e : Env) (a : St × Cnt) (p : Nat) :
    Static a.1 (countNbr e a p).1 := by
  unfold countNbr
  simp only
  split
  · exact putN_static _ _ _ rfl rfl rfl
  · refine Static.trans (foldl_static (·.1) (countLink e) (countLink_static e) (a.1.nbr p).list a) ?_
    apply putN_static <;> rfl

theorem calcTwoHop_static (e : Env) (s : St) : Static s (calcTwoHop e s).1 :=
  (clearProcessed_static e s).trans
    (foldl_static (·.1) (countNbr e) (countNbr_static e) _ (clearProcessed e s, ⟨0, 0, 0⟩))

/-- The counting changes neither the relay flags nor the coverage. -/
def SameFlags (s s' : St) : Prop :=
  (∀ p, (s'.nbr p).isMpr = (s.nbr p).isMpr ∧ (s'.nbr p).wasMpr = (s.nbr p).wasMpr) ∧
  ∀ t, (s'.two t).covered = (s.two t).covered

theorem SameFlags.refl (s : St) : SameFlags s s := ⟨fun _ => ⟨rfl, rfl⟩, fun _ => rfl⟩

theorem SameFlags.trans {a b c : St} (h : SameFlags a b) (k : SameFlags b c) : SameFlags a c :=
  ⟨fun p => ⟨(k.1 p).1.trans (h.1 p).1, (k.1 p).2.trans (h.1 p).2⟩,
   fun t => (k.2 t).trans (h.2 t)⟩

theorem foldl_same {α β : Type} (g : β → St) (f : β → α → β)
    (h : ∀ b x, SameFlags (g b) (g (f b x))) : ∀ (l : List α) (b : β),
    SameFlags (g b) (g (l.foldl f b)) := by
  intro l
  induction l with
  | nil => intro b; exact SameFlags.refl _
  | cons x l ih => intro b; exact (h b x).trans (ih _)

theorem putN_same (s : St) (p : Nat) (n : Nbr) (h1 : n.isMpr = (s.nbr p).isMpr)
    (h2 : n.wasMpr = (s.nbr p).wasMpr) : SameFlags s (s.putN p n) := by
  refine ⟨fun q => ?_, fun _ => rfl⟩
  rw [putN_nbr]; split
  · next h => rw [h]; exact ⟨h1, h2⟩
  · exact ⟨rfl, rfl⟩

theorem putT_same (s : St) (t : Nat) (n : Two) (h1 : n.covered = (s.two t).covered) :
    SameFlags s (s.putT t n) := by
  refine ⟨fun q => ⟨rfl, rfl⟩, fun u => ?_⟩
  rw [putT_two]; split
  · next h => rw [h]; exact h1
  · rfl

theorem countLink_same (e : Env) (a : St × Cnt) (t : Nat) :
    SameFlags a.1 (countLink e a t).1 := by
  unfold countLink
  split
  · exact SameFlags.refl _
  · simp only
    split
    · exact SameFlags.refl _
    · exact putT_same _ _ _ rfl

theorem countNbr_same (e : Env) (a : St × Cnt) (p : Nat) :
    SameFlags a.1 (countNbr e a p).1 := by
  unfold countNbr
  simp only
  split
  · exact putN_same _ _ _ rfl rfl
  · refine SameFlags.trans (foldl_same (·.1) (countLink e) (countLink_same e) (a.1.nbr p).list a) ?_
    apply putN_same <;> rfl

theorem calcTwoHop_same (e : Env) (s : St) : SameFlags s (calcTwoHop e s).1 :=
  (foldl_same id (fun s t => s.putT t { s.two t with processed := false })
    (fun s t => by apply putT_same; rfl) e.twoTable s).trans
    (foldl_same (·.1) (countNbr e) (countNbr_same e) _ (clearProcessed e s, ⟨0, 0, 0⟩))

/-- The processed entries of the two-hop table are the elements of `D`. -/
def Marks (e : Env) (a : St × Cnt) (D : List Nat) : Prop :=
  D.Nodup ∧ (∀ t ∈ e.twoTable, (a.1.two t).processed = true ↔ t ∈ D) ∧ a.2.count = D.length

theorem countLinks_marks (e : Env) : ∀ (l : List Nat) (a : St × Cnt) (D : List Nat),
    Marks e a D → (∀ t ∈ l, t ∈ e.twoTable) → a.2.count + l.length < 65536 →
    ∃ D', Marks e (l.foldl (countLink e) a) D' ∧ (∀ t ∈ D, t ∈ D') ∧
      (∀ t ∈ l, isSymNbr e a.1 t = false → t ∈ D') ∧
      (l.foldl (countLink e) a).2.count ≤ a.2.count + l.length ∧
      (l.foldl (countLink e) a).2.sum = a.2.sum := by
  intro l
  induction l with
  | nil =>
    intro a D h _ _
    exact ⟨D, h, fun _ h => h, by simp, by simp, rfl⟩
  | cons t l ih =>
    intro a D h hl hb
    obtain ⟨m1, m2, m3⟩ := h
    have hstat := countLink_static e a t
    have step : ∃ D1, Marks e (countLink e a t) D1 ∧ (∀ u ∈ D, u ∈ D1) ∧
        (isSymNbr e a.1 t = false → t ∈ D1) ∧ (countLink e a t).2.count ≤ a.2.count + 1 ∧
        (countLink e a t).2.sum = a.2.sum := by
      unfold countLink
      by_cases hs : isSymNbr e a.1 t = true
      · rw [if_pos hs]
        exact ⟨D, ⟨m1, m2, m3⟩, fun _ h => h, by rw [hs]; simp, by omega, rfl⟩
      · rw [if_neg hs]
        simp only
        by_cases hp : (a.1.two t).processed = true
        · rw [if_pos hp]
          exact ⟨D, ⟨m1, m2, m3⟩, fun _ h => h, fun _ => (m2 t (hl t (by simp))).1 hp,
            by show a.2.count ≤ _; omega, rfl⟩
        · rw [if_neg hp]
          have hnt : t ∉ D := fun h => hp ((m2 t (hl t (by simp))).2 h)
          simp only [List.length_cons] at hb
          have hc : (a.2.count + 1) % 65536 = a.2.count + 1 := Nat.mod_eq_of_lt (by omega)
          refine ⟨t :: D, ⟨List.nodup_cons.2 ⟨hnt, m1⟩, ?_, ?_⟩, ?_, ?_, ?_, rfl⟩
          · intro u hu
            show ((a.1.putT t _).two u).processed = true ↔ _
            rw [putT_two]
            by_cases hut : u = t
            · simp [hut]
            · simp only [hut, if_false, List.mem_cons, false_or]
              exact m2 u hu
          · show (a.2.count + 1) % 65536 = _
            rw [hc, List.length_cons, m3]
          · intro u hu; exact List.mem_cons_of_mem _ hu
          · intro _; simp
          · show (a.2.count + 1) % 65536 ≤ _
            omega
    obtain ⟨D1, k1, k2, k3, k4, k5⟩ := step
    simp only [List.length_cons] at hb
    obtain ⟨D2, j1, j2, j3, j4, j5⟩ := ih (countLink e a t) D1 k1
      (fun u hu => hl u (List.mem_cons_of_mem _ hu)) (by omega)
    refine ⟨D2, j1, fun u hu => j2 u (k2 u hu), ?_, ?_, ?_⟩
    · intro u hu hus
      rcases List.mem_cons.1 hu with rfl | hu
      · exact j2 u (k3 hus)
      · exact j3 u hu (by rw [hstat.isSymNbr]; exact hus)
    · rw [List.foldl_cons, List.length_cons]; omega
    · rw [List.foldl_cons, j5, k5]

/-- The sum over the symmetric neighbours. -/
def symSum (e : Env) (s : St) (l : List Nat) : Nat :=
  (l.map fun p => if (s.nbr p).sym = true then n2 e s p else 0).sum

/-- The number of links of the neighbours in `l`. -/
def links (s : St) (l : List Nat) : Nat := (l.map fun p => (s.nbr p).list.length).sum

theorem Static.symSum {e : Env} {s s' : St} (h : Static s s') (l : List Nat) :
    symSum e s' l = symSum e s l := by
  unfold Mpr.symSum
  congr 1
  apply List.map_congr_left
  intro p _
  rw [h.sym, h.n2]

theorem Static.links {s s' : St} (h : Static s s') (l : List Nat) :
    links s' l = links s l := by
  unfold Mpr.links
  congr 1
  apply List.map_congr_left
  intro p _
  rw [h.list]

theorem countNbrs_sum (e : Env) (T : Nat) : ∀ (l : List Nat) (a : St × Cnt) (D : List Nat),
    Marks e a D → (∀ p ∈ l, (a.1.nbr p).list.Nodup ∧ ∀ t ∈ (a.1.nbr p).list, t ∈ e.twoTable) →
    a.2.count + links a.1 l ≤ T → a.2.sum + l.length * T < 65536 → T < 65536 →
    a.2.sum + symSum e a.1 l ≤ (l.foldl (countNbr e) a).2.sum := by
  intro l
  induction l with
  | nil => intro a D _ _ _ _ _; simp [symSum]
  | cons p l ih =>
    intro a D h hl hT hS hT2
    have hstat := countNbr_static e a p
    have hlk : links a.1 (p :: l) = (a.1.nbr p).list.length + links a.1 l := by
      simp [links]
    have hls : (p :: l).length * T = l.length * T + T := by
      rw [List.length_cons, Nat.add_mul, Nat.one_mul]
    have step : ∃ D1, Marks e (countNbr e a p) D1 ∧
        (countNbr e a p).2.count ≤ a.2.count + (a.1.nbr p).list.length ∧
        (countNbr e a p).2.sum ≤ a.2.sum + T ∧
        a.2.sum + (if (a.1.nbr p).sym = true then n2 e a.1 p else 0) ≤ (countNbr e a p).2.sum := by
      unfold countNbr
      simp only
      by_cases hs : (a.1.nbr p).sym = false
      · rw [if_pos hs]
        refine ⟨D, ⟨h.1, ?_, h.2.2⟩, by show a.2.count ≤ _; omega, by show a.2.sum ≤ _; omega, ?_⟩
        · intro t ht; exact h.2.1 t ht
        · rw [hs]; simp
      · rw [if_neg hs]
        obtain ⟨D1, k1, k2, k3, k4, k5⟩ := countLinks_marks e (a.1.nbr p).list a D h
          (hl p (by simp)).2 (by omega)
        have hcT : ((a.1.nbr p).list.foldl (countLink e) a).2.count ≤ T := by omega
        have hn2 : n2 e a.1 p ≤ ((a.1.nbr p).list.foldl (countLink e) a).2.count := by
          rw [k1.2.2]
          unfold n2
          have hnd : ((a.1.nbr p).list.filter fun t => !isSymNbr e a.1 t).Nodup :=
            (hl p (by simp)).1.filter _
          apply (List.subperm_of_subset hnd _).length_le
          intro t ht
          obtain ⟨h1, h2⟩ := List.mem_filter.1 ht
          exact k3 t h1 (by simpa using h2)
        have hmod : (((a.1.nbr p).list.foldl (countLink e) a).2.sum +
            ((a.1.nbr p).list.foldl (countLink e) a).2.count) % 65536 =
            a.2.sum + ((a.1.nbr p).list.foldl (countLink e) a).2.count := by
          rw [k5]; exact Nat.mod_eq_of_lt (by omega)
        refine ⟨D1, ⟨k1.1, ?_, k1.2.2⟩, k4, ?_, ?_⟩
        · intro t ht; exact k1.2.1 t ht
        · show (_ + _) % 65536 ≤ _
          rw [hmod]; omega
        · show _ ≤ (_ + _) % 65536
          rw [hmod]; split <;> omega
    obtain ⟨D1, k1, k2, k3, k4⟩ := step
    have := ih (countNbr e a p) D1 k1
      (by intro q hq; rw [hstat.list]; exact hl q (List.mem_cons_of_mem _ hq))
      (by rw [hstat.links]; omega) (by omega) hT2
    rw [List.foldl_cons]
    have h2 : symSum e a.1 (p :: l) =
        (if (a.1.nbr p).sym = true then n2 e a.1 p else 0) + symSum e a.1 l := by
      simp [symSum]
    rw [hstat.symSum] at this
    omega

/-! ### olsr_chosen_mpr -/

theorem uncover_static (s : St) (p : Nat) : Static s (uncover s p) := by
  unfold uncover; split
  · exact putN_static _ _ _ rfl rfl rfl
  · exact Static.refl _

theorem uncover_same (s : St) (p : Nat) : SameFlags s (uncover s p) := by
  unfold uncover; split
  · exact putN_same _ _ _ rfl rfl
  · exact SameFlags.refl _

theorem chosenLink_static (e : Env) (a : St × Nat) (t : Nat) :
    Static a.1 (chosenLink e a t).1 := by
  unfold chosenLink
  split
  · exact Static.refl _
  · simp only
    split
    · refine Static.trans ?_ (foldl_static id uncover uncover_static _ _)
      apply putT_static <;> rfl
    · exact putT_static _ _ _ rfl rfl rfl

theorem chosenLink_flags (e : Env) (a : St × Nat) (t : Nat) :
    (∀ p, ((chosenLink e a t).1.nbr p).isMpr = (a.1.nbr p).isMpr ∧
      ((chosenLink e a t).1.nbr p).wasMpr = (a.1.nbr p).wasMpr) ∧
    (∀ u, ((chosenLink e a t).1.two u).covered =
      if u = t ∧ isSymNbr e a.1 t = false then ((a.1.two u).covered + 1) % 256
      else (a.1.two u).covered) := by
  unfold chosenLink
  by_cases hs : isSymNbr e a.1 t = true
  · rw [if_pos hs]
    refine ⟨fun _ => ⟨rfl, rfl⟩, fun u => ?_⟩
    rw [hs]; simp
  · rw [if_neg hs]
    simp only [Bool.not_eq_true] at hs
    have hb : ∀ u, (({ a.1.two t with covered := ((a.1.two t).covered + 1) % 256 } : Two) =
        { a.1.two t with covered := ((a.1.two t).covered + 1) % 256 }) ∧
        ((a.1.putT t { a.1.two t with covered := ((a.1.two t).covered + 1) % 256 }).two u).covered =
        if u = t ∧ isSymNbr e a.1 t = false then ((a.1.two u).covered + 1) % 256
        else (a.1.two u).covered := by
      intro u
      refine ⟨rfl, ?_⟩
      rw [putT_two, hs]
      by_cases hu : u = t <;> simp [hu]
    simp only
    split
    · have h := foldl_same id uncover uncover_same
        ((a.1.putT t { a.1.two t with covered := ((a.1.two t).covered + 1) % 256 }).two t).nblist
        (a.1.putT t { a.1.two t with covered := ((a.1.two t).covered + 1) % 256 })
      exact ⟨fun p => h.1 p, fun u => (h.2 u).trans (hb u).2⟩
    · exact ⟨fun _ => ⟨rfl, rfl⟩, fun u => (hb u).2⟩

theorem chosenLink_count (e : Env) (a : St × Nat) (t : Nat) :
    (chosenLink e a t).2 ≤ a.2 + if isSymNbr e a.1 t = false then 1 else 0 := by
  unfold chosenLink
  by_cases hs : isSymNbr e a.1 t = true
  · rw [if_pos hs, hs]; simp
  · rw [if_neg hs]
    simp only [Bool.not_eq_true] at hs
    rw [hs]
    simp only
    split
    · exact Nat.mod_le _ _
    · simp

theorem chosenLinks_static (e : Env) (l : List Nat) (a : St × Nat) :
    Static a.1 (l.foldl (chosenLink e) a).1 :=
  foldl_static (·.1) (chosenLink e) (chosenLink_static e) l a

theorem chosenLinks_flags (e : Env) : ∀ (l : List Nat) (a : St × Nat),
    (∀ p, ((l.foldl (chosenLink e) a).1.nbr p).isMpr = (a.1.nbr p).isMpr ∧
      ((l.foldl (chosenLink e) a).1.nbr p).wasMpr = (a.1.nbr p).wasMpr) ∧
    (∀ u, u ∉ l → ((l.foldl (chosenLink e) a).1.two u).covered = (a.1.two u).covered) ∧
    (∀ u, u ∈ l → l.Nodup → isSymNbr e a.1 u = false →
      ((l.foldl (chosenLink e) a).1.two u).covered = ((a.1.two u).covered + 1) % 256) ∧
    (l.foldl (chosenLink e) a).2 ≤ a.2 + (l.filter fun t => !isSymNbr e a.1 t).length := by
  intro l
  induction l with
  | nil => intro a; exact ⟨fun _ => ⟨rfl, rfl⟩, fun _ _ => rfl, by simp, by simp⟩
  | cons t l ih =>
    intro a
    rw [List.foldl_cons]
    obtain ⟨h1, h2, h3, h4⟩ := ih (chosenLink e a t)
    obtain ⟨k1, k2⟩ := chosenLink_flags e a t
    have k3 := chosenLink_count e a t
    have hst := chosenLink_static e a t
    refine ⟨?_, ?_, ?_, ?_⟩
    · intro p
      exact ⟨(h1 p).1.trans (k1 p).1, (h1 p).2.trans (k1 p).2⟩
    · intro u hu
      simp only [List.mem_cons, not_or] at hu
      rw [h2 u hu.2, k2 u, if_neg]
      rintro ⟨h, _⟩; exact hu.1 h
    · intro u hu hnd hs
      obtain ⟨n1, n3⟩ := List.nodup_cons.1 hnd
      rcases List.mem_cons.1 hu with rfl | hu2
      · rw [h2 u n1, k2 u, if_pos ⟨rfl, hs⟩]
      · have hut : u ≠ t := fun h => n1 (h ▸ hu2)
        rw [h3 u hu2 n3 (by rw [hst.isSymNbr]; exact hs), k2 u, if_neg]
        rintro ⟨h, _⟩; exact hut h
    · have hf : (l.filter fun t' => !isSymNbr e (chosenLink e a t).1 t') =
          l.filter fun t' => !isSymNbr e a.1 t' := by
        apply List.filter_congr
        intro u _
        rw [hst.isSymNbr]
      rw [hf] at h4
      cases hs : isSymNbr e a.1 t
      · rw [hs] at k3
        simp only [List.filter_cons, hs, Bool.not_false, if_true, List.length_cons] at *
        omega
      · rw [hs] at k3
        simp only [List.filter_cons, hs, Bool.not_true] at *
        simp at k3
        simp
        omega

theorem mprFlag_static (s : St) (p : Nat) :
    Static s (s.putN p { s.nbr p with isMpr := true }) := putN_static _ _ _ rfl rfl rfl

theorem chosen_static (e : Env) (a : St × Nat) (p : Nat) : Static a.1 (chosen e a p).1 := by
  unfold chosen
  exact (mprFlag_static a.1 p).trans (chosenLinks_static e _ (_, a.2))

theorem chosen_flags (e : Env) (a : St × Nat) (p : Nat) :
    (∀ q, ((chosen e a p).1.nbr q).isMpr = (decide (q = p) || (a.1.nbr q).isMpr)) ∧
    (∀ q, ((chosen e a p).1.nbr q).wasMpr = (a.1.nbr q).wasMpr) ∧
    (∀ u, u ∉ (a.1.nbr p).list → ((chosen e a p).1.two u).covered = (a.1.two u).covered) ∧
    (∀ u, u ∈ (a.1.nbr p).list → (a.1.nbr p).list.Nodup → isSymNbr e a.1 u = false →
      ((chosen e a p).1.two u).covered = ((a.1.two u).covered + 1) % 256) ∧
    (chosen e a p).2 ≤ a.2 + n2 e a.1 p := by
  have hst := mprFlag_static a.1 p
  obtain ⟨h1, h2, h3, h4⟩ := chosenLinks_flags e
    ((a.1.putN p { a.1.nbr p with isMpr := true }).nbr p).list
    (a.1.putN p { a.1.nbr p with isMpr := true }, a.2)
  rw [hst.list] at h1 h2 h3 h4
  have hd : chosen e a p = ((a.1.nbr p).list.foldl (chosenLink e)
      (a.1.putN p { a.1.nbr p with isMpr := true }, a.2)) := by
    unfold chosen
    simp only
    rw [hst.list]
  rw [hd]
  refine ⟨?_, ?_, h2, ?_, ?_⟩
  · intro q
    rw [(h1 q).1, putN_nbr]
    by_cases hq : q = p <;> simp [hq]
  · intro q
    rw [(h1 q).2, putN_nbr]
    by_cases hq : q = p <;> simp [hq]
  · intro u hu hn hs
    exact h3 u hu hn (by rw [hst.isSymNbr]; exact hs)
  · have : ((a.1.nbr p).list.filter fun t =>
        !isSymNbr e (a.1.putN p { a.1.nbr p with isMpr := true }) t) =
        (a.1.nbr p).list.filter fun t => !isSymNbr e a.1 t := by
      apply List.filter_congr
      intro u _
      rw [hst.isSymNbr]
    rw [this] at h4
    exact h4

/-! ### selection runs -/

/-- The selection proceeds by choosing table entries that are not yet relays and
are allowed to become one. -/
inductive Sel (e : Env) : St × Nat → St × Nat → Prop
  | refl (a) : Sel e a a
  | step (a b p) : Sel e a b → p ∈ e.table → (b.1.nbr p).isMpr = false →
      ((b.1.nbr p).sym = true ∧ (b.1.nbr p).will = willAlways ∨
        1 ≤ (b.1.nbr p).will ∧ (b.1.nbr p).will ≤ 6) → Sel e a (chosen e b p)

theorem Sel.trans {e : Env} {a b c : St × Nat} (h : Sel e a b) (k : Sel e b c) : Sel e a c := by
  induction k with
  | refl => exact h
  | step c p _ hp hm hw ih => exact Sel.step a c p ih hp hm hw

theorem Sel.static {e : Env} {a b : St × Nat} (h : Sel e a b) : Static a.1 b.1 := by
  induction h with
  | refl => exact Static.refl _
  | step b p _ _ _ _ ih => exact ih.trans (chosen_static e b p)

theorem Sel.mono {e : Env} {a b : St × Nat} (h : Sel e a b) (q : Nat)
    (hq : (a.1.nbr q).isMpr = true) : (b.1.nbr q).isMpr = true := by
  induction h with
  | refl => exact hq
  | step b p _ _ _ _ ih => rw [(chosen_flags e b p).1]; simp [ih]

theorem Sel.was {e : Env} {a b : St × Nat} (h : Sel e a b) (q : Nat) :
    (b.1.nbr q).wasMpr = (a.1.nbr q).wasMpr := by
  induction h with
  | refl => rfl
  | step b p _ _ _ _ ih => rw [(chosen_flags e b p).2.1]; exact ih

/-- Sum over the relays of the table. -/
def mprSum (e : Env) (s : St) : Nat :=
  (e.table.map fun p => if (s.nbr p).isMpr = true then n2 e s p else 0).sum

theorem sum_update : ∀ (l : List Nat) (f g : Nat → Nat) (p : Nat), l.Nodup → p ∈ l →
    (∀ q, q ≠ p → f q = g q) → (l.map f).sum + g p = (l.map g).sum + f p := by
  intro l
  induction l with
  | nil => intro f g p _ hp; cases hp
  | cons x l ih =>
    intro f g p hnd hp hfg
    obtain ⟨n1, n2⟩ := List.nodup_cons.1 hnd
    simp only [List.map_cons, List.sum_cons]
    rcases List.mem_cons.1 hp with rfl | hp
    · have : l.map f = l.map g := by
        apply List.map_congr_left
        intro q hq
        exact hfg q (by rintro rfl; exact n1 hq)
      rw [this]; omega
    · have := ih f g p n2 hp hfg
      rw [hfg x (by rintro rfl; exact n1 hp)]
      omega

theorem chosen_mprSum (e : Env) (hnd : e.table.Nodup) (a : St × Nat) (p : Nat)
    (hp : p ∈ e.table) (hm : (a.1.nbr p).isMpr = false) :
    mprSum e (chosen e a p).1 = mprSum e a.1 + n2 e a.1 p := by
  unfold mprSum
  have hst := chosen_static e a p
  have := sum_update e.table
    (fun q => if ((chosen e a p).1.nbr q).isMpr = true then n2 e (chosen e a p).1 q else 0)
    (fun q => if (a.1.nbr q).isMpr = true then n2 e a.1 q else 0) p hnd hp (by
      intro q hq
      rw [(chosen_flags e a p).1, hst.n2]
      simp [hq])
  simp only [hm, (chosen_flags e a p).1 p, hst.n2 p] at this
  simp at this
  simpa using this

theorem Sel.count {e : Env} (hnd : e.table.Nodup) {a b : St × Nat} (h : Sel e a b)
    (ha : a.2 ≤ mprSum e a.1) : b.2 ≤ mprSum e b.1 := by
  induction h with
  | refl => exact ha
  | step b p _ hp hm _ ih =>
    rw [chosen_mprSum e hnd b p hp hm]
    have := (chosen_flags e b p).2.2.2.2
    omega

/-- A relay is allowed to be one. -/
theorem Sel.allowed {e : Env} {a b : St × Nat} (h : Sel e a b) (q : Nat)
    (ha : (a.1.nbr q).isMpr = false) (hb : (b.1.nbr q).isMpr = true) :
    (a.1.nbr q).sym = true ∧ (a.1.nbr q).will = willAlways ∨
      1 ≤ (a.1.nbr q).will ∧ (a.1.nbr q).will ≤ 6 := by
  induction h with
  | refl => rw [ha] at hb; cases hb
  | step b p hs hp hm hw ih =>
    rw [(chosen_flags e b p).1] at hb
    by_cases hq : q = p
    · subst hq
      rw [hs.static.sym, hs.static.will] at hw
      exact hw
    · simp [hq] at hb
      exact ih hb

/-- A two-hop neighbour that only `p` lists is covered once when `p` is a
relay. -/
theorem Sel.covered {e : Env} {a b : St × Nat} (h : Sel e a b) (p t : Nat)
    (hl : t ∈ (a.1.nbr p).list) (hn : (a.1.nbr p).list.Nodup)
    (honly : ∀ q ∈ e.table, t ∈ (a.1.nbr q).list → q = p) (hs : isSymNbr e a.1 t = false)
    (ha : (a.1.two t).covered = if (a.1.nbr p).isMpr = true then 1 else 0) :
    (b.1.two t).covered = if (b.1.nbr p).isMpr = true then 1 else 0 := by
  induction h with
  | refl => exact ha
  | step b q hsel hq hm _ ih =>
    obtain ⟨f1, _, f3, f4, _⟩ := chosen_flags e b q
    have hst := hsel.static
    by_cases hqp : q = p
    · subst hqp
      rw [f4 t (by rw [hst.list]; exact hl) (by rw [hst.list]; exact hn)
        (by rw [hst.isSymNbr]; exact hs), ih, hm, f1]
      simp
    · rw [f3 t (by rw [hst.list]; exact fun h => hqp (honly q hq h)), ih, f1]
      simp [Ne.symm hqp]

/-! ### the parts of the selection are runs -/

theorem addAlways_run (e : Env) : ∀ (l : List Nat) (a : St × Nat), l.Nodup →
    (∀ p ∈ l, p ∈ e.table) → (∀ p ∈ l, (a.1.nbr p).isMpr = false) →
    Sel e a (l.foldl (fun a p =>
      if (a.1.nbr p).sym = false ∨ (a.1.nbr p).will ≠ willAlways then a else chosen e a p) a) ∧
    ∀ p ∈ l, (a.1.nbr p).sym = true → (a.1.nbr p).will = willAlways →
      ((l.foldl (fun a p =>
        if (a.1.nbr p).sym = false ∨ (a.1.nbr p).will ≠ willAlways then a
        else chosen e a p) a).1.nbr p).isMpr = true := by
  intro l
  induction l with
  | nil => intro a _ _ _; exact ⟨Sel.refl a, by simp⟩
  | cons q l ih =>
    intro a hnd hin hfree
    obtain ⟨n1, n3⟩ := List.nodup_cons.1 hnd
    rw [List.foldl_cons]
    by_cases hc : (a.1.nbr q).sym = false ∨ (a.1.nbr q).will ≠ willAlways
    · rw [if_pos hc]
      obtain ⟨h1, h2⟩ := ih a n3 (fun p hp => hin p (List.mem_cons_of_mem _ hp))
        (fun p hp => hfree p (List.mem_cons_of_mem _ hp))
      refine ⟨h1, ?_⟩
      intro p hp hs hw
      rcases List.mem_cons.1 hp with rfl | hp
      · rcases hc with hc | hc
        · rw [hc] at hs; cases hs
        · exact absurd hw hc
      · exact h2 p hp hs hw
    · rw [if_neg hc]
      have hc' : (a.1.nbr q).sym = true ∧ (a.1.nbr q).will = willAlways := by
        simpa [not_or] using hc
      have hstep : Sel e a (chosen e a q) := Sel.step a a q (Sel.refl a) (hin q (by simp))
        (hfree q (by simp)) (Or.inl hc')
      obtain ⟨h1, h2⟩ := ih (chosen e a q) n3 (fun p hp => hin p (List.mem_cons_of_mem _ hp))
        (by
          intro p hp
          rw [(chosen_flags e a q).1, hfree p (List.mem_cons_of_mem _ hp)]
          have : p ≠ q := by rintro rfl; exact n1 hp
          simp [this])
      refine ⟨hstep.trans h1, ?_⟩
      intro p hp hs hw
      rcases List.mem_cons.1 hp with rfl | hp
      · apply h1.mono
        rw [(chosen_flags e a p).1]; simp
      · apply h2 p hp
        · rw [(chosen_static e a q).sym]; exact hs
        · rw [(chosen_static e a q).will]; exact hw

/-- What the search for two-hop neighbours with one link returns. -/
def oneStep (e : Env) (s : St) (will : Nat) (acc : Option (List Nat)) (t : Nat) :
    Option (List Nat) :=
    match acc with
    | none => none
    | some l =>
      if isSymNbr e s t = true then some l
      else if (s.two t).pointer = 1 then
        match (s.two t).nblist with
        | [] => none
        | p :: _ =>
          if (s.nbr p).will = will ∧ (s.nbr p).sym = true then some (t :: l) else some l
      else some l

theorem oneLinks_eq (e : Env) (s : St) (will : Nat) :
    oneLinks e s will = e.twoTable.foldl (oneStep e s will) (some []) := rfl

/-- An entry found by the search. -/
def Found (s : St) (will t : Nat) : Prop :=
  ∃ p r, (s.two t).nblist = p :: r ∧ (s.nbr p).will = will ∧ (s.nbr p).sym = true

theorem oneLinks_fold (e : Env) (s : St) (will : Nat) : ∀ (ts : List Nat) (l : List Nat),
    (∀ t ∈ ts, (s.two t).pointer = (s.two t).nblist.length) →
    ∃ l', ts.foldl (oneStep e s will) (some l) = some l' ∧ (∀ t ∈ l, t ∈ l') ∧
      (∀ t ∈ l', t ∈ l ∨ t ∈ ts ∧ Found s will t) ∧
      ∀ t ∈ ts, isSymNbr e s t = false → (s.two t).pointer = 1 → Found s will t → t ∈ l' := by
  intro ts
  induction ts with
  | nil => intro l _; exact ⟨l, rfl, fun _ h => h, fun _ h => Or.inl h, by simp⟩
  | cons t ts ih =>
    intro l hp
    have hstep : ∃ l1, oneStep e s will (some l) t = some l1 ∧ (∀ u ∈ l, u ∈ l1) ∧
        (∀ u ∈ l1, u ∈ l ∨ u = t ∧ Found s will u) ∧
        (isSymNbr e s t = false → (s.two t).pointer = 1 → Found s will t → t ∈ l1) := by
      unfold oneStep
      simp only
      by_cases h1 : isSymNbr e s t = true
      · rw [if_pos h1]
        exact ⟨l, rfl, fun _ h => h, fun _ h => Or.inl h, by rw [h1]; simp⟩
      · rw [if_neg h1]
        by_cases h2 : (s.two t).pointer = 1
        · rw [if_pos h2]
          have hlen := hp t (by simp)
          cases hn : (s.two t).nblist with
          | nil => rw [h2, hn] at hlen; simp at hlen
          | cons p r =>
            simp only
            by_cases h3 : (s.nbr p).will = will ∧ (s.nbr p).sym = true
            · rw [if_pos h3]
              refine ⟨t :: l, rfl, fun u hu => List.mem_cons_of_mem _ hu, ?_, by simp⟩
              intro u hu
              rcases List.mem_cons.1 hu with rfl | hu
              · exact Or.inr ⟨rfl, p, r, hn, h3⟩
              · exact Or.inl hu
            · rw [if_neg h3]
              refine ⟨l, rfl, fun _ h => h, fun _ h => Or.inl h, ?_⟩
              rintro _ _ ⟨p', r', e1, e2⟩
              rw [hn] at e1
              simp only [List.cons.injEq] at e1
              rw [e1.1] at h3
              exact absurd e2 h3
        · rw [if_neg h2]
          exact ⟨l, rfl, fun _ h => h, fun _ h => Or.inl h, fun _ h => absurd h h2⟩
    obtain ⟨l1, a1, a2, a3, a4⟩ := hstep
    obtain ⟨l2, b1, b2, b3, b4⟩ := ih l1 (fun u hu => hp u (List.mem_cons_of_mem _ hu))
    refine ⟨l2, by rw [List.foldl_cons, a1, b1], fun u hu => b2 u (a2 u hu), ?_, ?_⟩
    · intro u hu
      rcases b3 u hu with h | ⟨h, h'⟩
      · rcases a3 u h with h | ⟨rfl, h'⟩
        · exact Or.inl h
        · exact Or.inr ⟨by simp, h'⟩
      · exact Or.inr ⟨List.mem_cons_of_mem _ h, h'⟩
    · intro u hu h1 h2 h3
      rcases List.mem_cons.1 hu with rfl | hu
      · exact b2 u (a4 h1 h2 h3)
      · exact b4 u hu h1 h2 h3

theorem oneLinks_fold_none (e : Env) (s : St) (will : Nat) : ∀ (ts : List Nat),
    ts.foldl (oneStep e s will) none = none := by
  intro ts
  induction ts with
  | nil => rfl
  | cons t ts ih => rw [List.foldl_cons]; exact ih

theorem oneLinks_sound (e : Env) (s : St) (will : Nat) : ∀ (ts : List Nat) (l l' : List Nat),
    ts.foldl (oneStep e s will) (some l) = some l' →
    ∀ t ∈ l', t ∈ l ∨ t ∈ ts ∧ Found s will t := by
  intro ts
  induction ts with
  | nil =>
    intro l l' h t ht
    rw [List.foldl_nil, Option.some.injEq] at h
    rw [← h] at ht; exact Or.inl ht
  | cons t ts ih =>
    intro l l' h u hu
    rw [List.foldl_cons] at h
    have hlift : ∀ l1, oneStep e s will (some l) t = some l1 →
        (∀ v ∈ l1, v ∈ l ∨ v = t ∧ Found s will v) → u ∈ l ∨ u ∈ t :: ts ∧ Found s will u := by
      intro l1 h1 h2
      rw [h1] at h
      rcases ih l1 l' h u hu with h3 | ⟨h3, h4⟩
      · rcases h2 u h3 with h4 | ⟨rfl, h4⟩
        · exact Or.inl h4
        · exact Or.inr ⟨by simp, h4⟩
      · exact Or.inr ⟨List.mem_cons_of_mem _ h3, h4⟩
    by_cases h1 : isSymNbr e s t = true
    · exact hlift l (by simp [oneStep, h1]) (fun v hv => Or.inl hv)
    · by_cases h2 : (s.two t).pointer = 1
      · cases hn : (s.two t).nblist with
        | nil =>
          have : oneStep e s will (some l) t = none := by simp [oneStep, h1, h2, hn]
          rw [this, oneLinks_fold_none] at h
          cases h
        | cons p r =>
          by_cases h3 : (s.nbr p).will = will ∧ (s.nbr p).sym = true
          · refine hlift (t :: l) (by simp [oneStep, h1, h2, hn, h3]) ?_
            intro v hv
            rcases List.mem_cons.1 hv with rfl | hv
            · exact Or.inr ⟨rfl, p, r, hn, h3⟩
            · exact Or.inl hv
          · refine hlift l ?_ (fun v hv => Or.inl hv)
            simp only [oneStep, h1, h2, hn, if_true]
            rw [if_neg h3]; rfl
      · exact hlift l (by simp [oneStep, h1, h2]) (fun v hv => Or.inl hv)

theorem chooseOnes_run (e : Env) (will : Nat) (hw : 1 ≤ will ∧ will ≤ 6) :
    ∀ (ts : List Nat) (a : St × Nat),
    (∀ t ∈ ts, t ∈ e.twoTable ∧ Found a.1 will t) →
    (∀ t ∈ e.twoTable, ∀ p ∈ (a.1.two t).nblist, p ∈ e.table) →
    Sel e a (chooseOnes e a ts) ∧
    ∀ t ∈ ts, ∀ p r, (a.1.two t).nblist = p :: r →
      ((chooseOnes e a ts).1.nbr p).isMpr = true := by
  intro ts
  induction ts with
  | nil => intro a _ _; exact ⟨Sel.refl a, by simp⟩
  | cons t ts ih =>
    intro a hts hin
    obtain ⟨ht, p, r, hp, hpw, hps⟩ := hts t (by simp)
    have hfirst : firstNbr a.1 t = some p := by simp [firstNbr, hp]
    have hpt : p ∈ e.table := hin t ht p (by rw [hp]; simp)
    have hstep : ∃ b, chooseOnes e a (t :: ts) = chooseOnes e b ts ∧ Sel e a b ∧
        (b.1.nbr p).isMpr = true := by
      by_cases hm : (a.1.nbr p).isMpr = true
      · refine ⟨a, ?_, Sel.refl a, hm⟩
        unfold chooseOnes
        rw [List.foldl_cons, hfirst]
        simp [hm]
      · refine ⟨chosen e a p, ?_, Sel.step a a p (Sel.refl a) hpt (by simpa using hm)
          (Or.inr ⟨by omega, by omega⟩), ?_⟩
        · unfold chooseOnes
          rw [List.foldl_cons, hfirst]
          simp [hm]
        · rw [(chosen_flags e a p).1]; simp
    obtain ⟨b, e1, e2, e3⟩ := hstep
    have hst := e2.static
    obtain ⟨h1, h2⟩ := ih b
      (by
        intro u hu
        obtain ⟨g1, q, r', g2, g3, g4⟩ := hts u (List.mem_cons_of_mem _ hu)
        exact ⟨g1, q, r', by rw [hst.nblist]; exact g2, by rw [hst.will]; exact g3,
          by rw [hst.sym]; exact g4⟩)
      (by intro u hu q hq; rw [hst.nblist] at hq; exact hin u hu q hq)
    rw [e1]
    refine ⟨e2.trans h1, ?_⟩
    intro u hu q r' hq
    rcases List.mem_cons.1 hu with rfl | hu
    · rw [hp] at hq
      simp only [List.cons.injEq] at hq
      rw [← hq.1]
      exact h1.mono p e3
    · exact h2 u hu q r' (by rw [hst.nblist]; exact hq)

theorem maxStep_fold (s : St) (will : Nat) : ∀ (l : List Nat) (a : Option Nat × Int) (p : Nat),
    (l.foldl (maxStep s will) a).1 = some p →
    a.1 = some p ∨ p ∈ l ∧ (s.nbr p).isMpr = false ∧ (s.nbr p).will = will := by
  intro l
  induction l with
  | nil => intro a p h; exact Or.inl h
  | cons q l ih =>
    intro a p h
    rw [List.foldl_cons] at h
    rcases ih _ p h with h1 | ⟨h1, h2⟩
    · unfold maxStep at h1
      split at h1
      · next hc =>
        simp only [Option.some.injEq] at h1
        subst h1
        exact Or.inr ⟨by simp, hc.1, hc.2.1⟩
      · exact Or.inl h1
    · exact Or.inr ⟨List.mem_cons_of_mem _ h1, h2⟩

theorem findMax_some (e : Env) (s : St) (will p : Nat) (h : findMax e s will = some p) :
    p ∈ e.table ∧ (s.nbr p).isMpr = false ∧ (s.nbr p).will = will := by
  rcases maxStep_fold s will e.table (none, 0) p h with h | h
  · cases h
  · exact h

theorem maxLoop_run (e : Env) (sum will : Nat) (hw : 1 ≤ will ∧ will ≤ 6) :
    ∀ (fuel : Nat) (a : St × Nat), Sel e a (maxLoop e sum will fuel a).1 ∧
      ((maxLoop e sum will fuel a).2 = true → sum ≤ (maxLoop e sum will fuel a).1.2) := by
  intro fuel
  induction fuel with
  | zero => intro a; exact ⟨Sel.refl a, by simp [maxLoop]⟩
  | succ fuel ih =>
    intro a
    unfold maxLoop
    split
    · exact ⟨Sel.refl a, by simp⟩
    · next p hp =>
      obtain ⟨h1, h2, h3⟩ := findMax_some e a.1 will p hp
      have hs : Sel e a (chosen e a p) := Sel.step a a p (Sel.refl a) h1 h2
        (Or.inr ⟨by omega, by omega⟩)
      simp only
      split
      · next hc => exact ⟨hs, fun _ => hc⟩
      · exact ⟨hs.trans (ih _).1, (ih _).2⟩

/-- The pointers of the two-hop table lead into the neighbour table. -/
def Inside (e : Env) (s : St) : Prop := ∀ t ∈ e.twoTable, ∀ p ∈ (s.two t).nblist, p ∈ e.table

theorem willLoop_run (e : Env) (sum : Nat) : ∀ (i : Nat), i ≤ 6 → ∀ (a b : St × Nat),
    Inside e a.1 → willLoop e sum i a = some b → Sel e a b := by
  intro i
  induction i with
  | zero =>
    intro _ a b _ h
    simp only [willLoop, Option.some.injEq] at h
    rw [← h]; exact Sel.refl a
  | succ i ih =>
    intro hi a b hin h
    unfold willLoop at h
    split at h
    · cases h
    · next ts hts =>
      have hfound := oneLinks_sound e a.1 (i + 1) e.twoTable [] ts hts
      obtain ⟨r1, _⟩ := chooseOnes_run e (i + 1) ⟨by omega, by omega⟩ ts a
        (by
          intro t ht
          rcases hfound t ht with h | h
          · cases h
          · exact h) hin
      simp only at h
      split at h
      · rw [Option.some.injEq] at h; rw [← h]; exact r1
      · have r2 := (maxLoop_run e sum (i + 1) ⟨by omega, by omega⟩ e.table.length
          (chooseOnes e a ts)).1
        split at h
        · rw [Option.some.injEq] at h; rw [← h]; exact r1.trans r2
        · refine r1.trans (r2.trans (ih (by omega) _ b ?_ h))
          intro t ht p hp
          rw [(r1.trans r2).static.nblist] at hp
          exact hin t ht p hp

/-- The loop over the willingness does not fail, and either the count is reached
or every one-link neighbour of the willingness range is a relay. -/
theorem willLoop_ones (e : Env) (sum : Nat) : ∀ (i : Nat), i ≤ 6 → ∀ (a : St × Nat),
    Inside e a.1 → (∀ t ∈ e.twoTable, (a.1.two t).pointer = (a.1.two t).nblist.length) →
    ∃ b, willLoop e sum i a = some b ∧ Sel e a b ∧
      (sum ≤ b.2 ∨ ∀ t ∈ e.twoTable, ∀ p, (a.1.two t).nblist = [p] → isSymNbr e a.1 t = false →
        (a.1.nbr p).sym = true → 1 ≤ (a.1.nbr p).will → (a.1.nbr p).will ≤ i →
        (b.1.nbr p).isMpr = true) := by
  intro i
  induction i with
  | zero =>
    intro _ a _ _
    exact ⟨a, rfl, Sel.refl a, Or.inr (by intro _ _ p _ _ _ h1 h2; omega)⟩
  | succ i ih =>
    intro hi a hin hptr
    obtain ⟨ts, h1, _, h3, h4⟩ := oneLinks_fold e a.1 (i + 1) e.twoTable [] hptr
    have hts : oneLinks e a.1 (i + 1) = some ts := h1
    obtain ⟨r1, r2⟩ := chooseOnes_run e (i + 1) ⟨by omega, by omega⟩ ts a
      (by
        intro t ht
        rcases h3 t ht with h | h
        · cases h
        · exact h) hin
    unfold willLoop
    rw [hts]
    simp only
    by_cases hc : sum ≤ (chooseOnes e a ts).2
    · rw [if_pos hc]
      exact ⟨_, rfl, r1, Or.inl hc⟩
    · rw [if_neg hc]
      obtain ⟨m1, m2⟩ := maxLoop_run e sum (i + 1) ⟨by omega, by omega⟩ e.table.length
        (chooseOnes e a ts)
      by_cases hd : (maxLoop e sum (i + 1) e.table.length (chooseOnes e a ts)).2 = true
      · rw [if_pos hd]
        exact ⟨_, rfl, r1.trans m1, Or.inl (m2 hd)⟩
      · rw [if_neg hd]
        have hst := (r1.trans m1).static
        obtain ⟨b, b1, b2, b3⟩ := ih (by omega) (maxLoop e sum (i + 1) e.table.length (chooseOnes e a ts)).1
          (by intro t ht p hp; rw [hst.nblist] at hp; exact hin t ht p hp)
          (by intro t ht; rw [hst.pointer, hst.nblist]; exact hptr t ht)
        refine ⟨b, b1, r1.trans (m1.trans b2), ?_⟩
        rcases b3 with b3 | b3
        · exact Or.inl b3
        · right
          intro t ht p hp hs hsy hw1 hw2
          by_cases hwe : (a.1.nbr p).will = i + 1
          · have hmem : t ∈ ts := by
              apply h4 t ht hs
              · rw [hptr t ht, hp]; rfl
              · exact ⟨p, [], hp, hwe, hsy⟩
            exact (m1.trans b2).mono p (r2 t hmem p [] hp)
          · apply b3 t ht p
            · rw [hst.nblist]; exact hp
            · rw [hst.isSymNbr]; exact hs
            · rw [hst.sym]; exact hsy
            · rw [hst.will]; exact hw1
            · rw [hst.will]; omega

/-! ### optimisation and change detection -/

theorem optimize1_static (e : Env) (will : Nat) (s : St) (p : Nat) :
    Static s (optimize1 e will s p) := by
  unfold optimize1
  split
  · exact Static.refl _
  · split
    · exact putN_static _ _ _ rfl rfl rfl
    · exact Static.refl _

theorem optimize1_two (e : Env) (will : Nat) (s : St) (p : Nat) :
    (optimize1 e will s p).two = s.two := by
  unfold optimize1
  repeat' split
  all_goals rfl

/-- Properties of states that every step of the optimisation keeps. -/
theorem optimize_keeps (e : Env) (P : St → Prop)
    (h : ∀ will ∈ [1, 2, 3, 4, 5, 6], ∀ s p, p ∈ e.table → P s → P (optimize1 e will s p)) (s : St)
    (hs : P s) : P (optimize e s) := by
  have inner : ∀ will ∈ [1, 2, 3, 4, 5, 6], ∀ (l : List Nat) (s : St), (∀ p ∈ l, p ∈ e.table) → P s →
      P (l.foldl (optimize1 e will) s) := by
    intro will hw l
    induction l with
    | nil => intro s _ hs; exact hs
    | cons p l ih =>
      intro s hl hs
      exact ih _ (fun q hq => hl q (List.mem_cons_of_mem _ hq)) (h will hw s p (hl p (by simp)) hs)
  have outer : ∀ (ws : List Nat) (s : St), (∀ w ∈ ws, w ∈ [1, 2, 3, 4, 5, 6]) → P s →
      P (ws.foldl (fun s will => e.table.foldl (optimize1 e will) s) s) := by
    intro ws
    induction ws with
    | nil => intro s _ hs; exact hs
    | cons w ws ih =>
      intro s hw hs
      exact ih _ (fun v hv => hw v (List.mem_cons_of_mem _ hv))
        (inner w (hw w (by simp)) e.table s (fun _ h => h) hs)
  exact outer _ s (fun _ h => h) hs

theorem optimize1_isMpr (e : Env) (will : Nat) (s : St) (p q : Nat)
    (h : ((optimize1 e will s p).nbr q).isMpr = true) : (s.nbr q).isMpr = true := by
  unfold optimize1 at h
  split at h
  · exact h
  · split at h
    · rw [putN_nbr] at h
      by_cases hq : q = p
      · simp [hq] at h
      · simpa [hq] using h
    · exact h

theorem optimize1_was (e : Env) (will : Nat) (s : St) (p q : Nat) :
    ((optimize1 e will s p).nbr q).wasMpr = (s.nbr q).wasMpr := by
  unfold optimize1
  split
  · rfl
  · split
    · rw [putN_nbr]; by_cases hq : q = p <;> simp [hq]
    · rfl

theorem check1_static (a : St × Bool) (p : Nat) : Static a.1 (check1 a p).1 := by
  unfold check1
  split
  · exact putN_static _ _ _ rfl rfl rfl
  · exact Static.refl _

theorem check_isMpr : ∀ (l : List Nat) (a : St × Bool) (q : Nat),
    ((l.foldl check1 a).1.nbr q).isMpr = (a.1.nbr q).isMpr := by
  intro l
  induction l with
  | nil => intro a q; rfl
  | cons p l ih =>
    intro a q
    rw [List.foldl_cons, ih]
    unfold check1
    split
    · rw [putN_nbr]; by_cases hq : q = p <;> simp [hq]
    · rfl

theorem check_result : ∀ (l : List Nat), l.Nodup → ∀ (a : St × Bool),
    ((l.foldl check1 a).2 = true ↔ a.2 = true ∨
      ∃ p ∈ l, (a.1.nbr p).wasMpr = true ∧ (a.1.nbr p).isMpr = false) ∧
    ∀ p ∈ l, ((l.foldl check1 a).1.nbr p).wasMpr = false := by
  intro l
  induction l with
  | nil => intro _ a; simp
  | cons p l ih =>
    intro hnd a
    obtain ⟨n1, n2⟩ := List.nodup_cons.1 hnd
    rw [List.foldl_cons]
    obtain ⟨h1, h2⟩ := ih n2 (check1 a p)
    have hoth : ∀ q, q ≠ p → (check1 a p).1.nbr q = a.1.nbr q := by
      intro q hq
      unfold check1
      split
      · rw [putN_nbr]; simp [hq]
      · rfl
    have hp : ((check1 a p).1.nbr p).wasMpr = false := by
      unfold check1
      split
      · rw [putN_nbr]; simp
      · next h => simpa using h
    have hres : (check1 a p).2 = true ↔
        a.2 = true ∨ (a.1.nbr p).wasMpr = true ∧ (a.1.nbr p).isMpr = false := by
      unfold check1
      split
      · next h => simp [h]
      · next h => simp [h]
    constructor
    · rw [h1, hres]
      constructor
      · rintro ((h | h) | ⟨q, hq, h⟩)
        · exact Or.inl h
        · exact Or.inr ⟨p, by simp, h⟩
        · rw [hoth q (by rintro rfl; exact n1 hq)] at h
          exact Or.inr ⟨q, List.mem_cons_of_mem _ hq, h⟩
      · rintro (h | ⟨q, hq, h⟩)
        · exact Or.inl (Or.inl h)
        · rcases List.mem_cons.1 hq with rfl | hq2
          · exact Or.inl (Or.inr h)
          · exact Or.inr ⟨q, hq2, by rw [hoth q (fun hx => n1 (hx ▸ hq2))]; exact h⟩
    · intro q hq
      by_cases hql : q ∈ l
      · exact h2 q hql
      · rcases List.mem_cons.1 hq with rfl | hq
        · have keep : ∀ (l : List Nat) (a : St × Bool), (a.1.nbr q).wasMpr = false →
              ((l.foldl check1 a).1.nbr q).wasMpr = false := by
            intro l
            induction l with
            | nil => intro a h; exact h
            | cons x l ih2 =>
              intro a h
              rw [List.foldl_cons]
              apply ih2
              unfold check1
              split
              · rw [putN_nbr]; by_cases hx : q = x <;> simp [hx]
                simpa [hx] using h
              · exact h
          exact keep l _ hp
        · exact absurd hq hql

end Verif.Mpr
