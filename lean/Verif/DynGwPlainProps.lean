import Verif.DynGwPlainModel

/-!
# C140: dyn_gw_plain announces the Internet while there is a default route
-/

namespace Verif.DynGwPlain

open Verif.DynGw (Net Route)

/-! ### Specification -/

/-- the table has a default route that is up and has metric 0 -/
def hasDefault (rs : List Route) : Prop := ∃ r ∈ rs, r.up = true ∧ r.metric = 0 ∧ r.mask = [0, 0, 0, 0] ∧ r.dest = [0, 0, 0, 0]

/-- the last table that could be read, `[]` if there was none -/
def lastTable : List Ev → List Route
  | [] => []
  | .tick (some rs) :: es => if es.any (fun e => match e with | .tick (some _) => true | _ => false) then lastTable es else rs
  | _ :: es => lastTable es

/-- what the others make of their entries -/
def others : List Net → List Ev → List Net
  | l, [] => l
  | l, .add n :: es => others (n :: l) es
  | l, .del n :: es => others (l.erase n) es
  | l, .tick _ :: es => others l es

/-- the others leave the entry for the Internet alone -/
def Apart (evs : List Ev) : Prop := ∀ e ∈ evs, e ≠ .add inet ∧ e ≠ .del inet

/-! ### Proofs -/

private theorem checkGw_some (rs : List Route) : ∃ b, checkGw (some rs) = some b ∧ (b = true ↔ hasDefault rs) := by
  refine ⟨_, rfl, ?_⟩
  have : ∀ (rs : List Route) (v : Bool),
      rs.foldl (fun v r => if r.up = true ∧ r.metric = 0 ∧ r.mask = [0, 0, 0, 0] ∧ r.dest = [0, 0, 0, 0] then true else v) v = true ↔
        v = true ∨ hasDefault rs := by
    intro rs
    induction rs with
    | nil => intro v; simp [hasDefault]
    | cons r rs ih =>
      intro v
      rw [List.foldl_cons, ih]
      unfold hasDefault
      by_cases hc : r.up = true ∧ r.metric = 0 ∧ r.mask = [0, 0, 0, 0] ∧ r.dest = [0, 0, 0, 0]
      · rw [if_pos hc]
        constructor
        · intro _; exact Or.inr ⟨r, List.mem_cons_self .., hc⟩
        · intro _; exact Or.inl rfl
      · rw [if_neg hc]
        constructor
        · rintro (h | ⟨x, hx, h⟩)
          · exact Or.inl h
          · exact Or.inr ⟨x, List.mem_cons_of_mem _ hx, h⟩
        · rintro (h | ⟨x, hx, h⟩)
          · exact Or.inl h
          · rcases List.mem_cons.1 hx with rfl | hx
            · exact absurd h hc
            · exact Or.inr ⟨x, hx, h⟩
  rw [this rs false]
  simp

private def Inv (l : List Net) (s : St) : Prop :=
  s.entries.filter (fun e => e != inet) = l ∧ (inet ∈ s.entries ↔ s.has = true) ∧ s.entries.count inet ≤ 1

private theorem filter_erase (n : Net) (hn : n ≠ inet) : ∀ l : List Net,
    (l.erase n).filter (fun e => e != inet) = (l.filter (fun e => e != inet)).erase n
  | [] => rfl
  | x :: l => by
    by_cases hx : x = n
    · subst hx
      rw [List.erase_cons_head, List.filter_cons_of_pos (by simpa using hn), List.erase_cons_head]
    · rw [List.erase_cons_tail (by simpa using hx)]
      by_cases hi : x = inet
      · rw [List.filter_cons_of_neg (by simp [hi]), List.filter_cons_of_neg (by simp [hi]), filter_erase n hn l]
      · rw [List.filter_cons_of_pos (by simpa using hi), List.filter_cons_of_pos (by simpa using hi),
          List.erase_cons_tail (by simpa using hx), filter_erase n hn l]

private theorem filter_mem (l : List Net) : inet ∉ l.filter (fun e => e != inet) := by simp

private theorem inv_tick {l : List Net} {s : St} (h : Inv l s) (t : Option (List Route)) :
    Inv l (step s (.tick t)) ∧ (step s (.tick t)).has = (checkGw t).getD s.has := by
  obtain ⟨h1, h2, h3⟩ := h
  unfold step
  simp only []
  by_cases hc : checkGw t = some true ∧ s.has = false
  · rw [if_pos hc]
    have hno : inet ∉ s.entries := by rw [h2, hc.2]; decide
    refine ⟨⟨?_, by simp, ?_⟩, by rw [hc.1]; rfl⟩
    · rw [List.filter_cons_of_neg (by simp)]; exact h1
    · rw [List.count_cons_self, List.count_eq_zero_of_not_mem hno]
      exact Nat.le_refl _
  · rw [if_neg hc]
    by_cases hc2 : checkGw t = some false ∧ s.has = true
    · rw [if_pos hc2]
      refine ⟨⟨?_, ?_, ?_⟩, by rw [hc2.1]; rfl⟩
      · simp only [removeAll, List.filter_filter, Bool.and_self]; exact h1
      · simp [removeAll]
      · rw [show (removeAll inet s.entries).count inet = 0 from List.count_eq_zero_of_not_mem (filter_mem _)]
        exact Nat.zero_le _
    · rw [if_neg hc2]
      refine ⟨⟨h1, h2, h3⟩, ?_⟩
      cases hg : checkGw t with
      | none => rfl
      | some b => cases b <;> cases hs : s.has <;> simp_all

private theorem inv_other {l : List Net} {s : St} (h : Inv l s) (n : Net) (hn : n ≠ inet) :
    Inv (n :: l) (step s (.add n)) ∧ Inv (l.erase n) (step s (.del n)) := by
  obtain ⟨h1, h2, h3⟩ := h
  constructor
  · refine ⟨?_, ?_, ?_⟩
    · show (n :: s.entries).filter (fun e => e != inet) = n :: l
      rw [List.filter_cons_of_pos (by simpa using hn), h1]
    · show inet ∈ n :: s.entries ↔ s.has = true
      rw [List.mem_cons, ← h2]
      simp [Ne.symm hn]
    · show (n :: s.entries).count inet ≤ 1
      rw [List.count_cons_of_ne hn]; exact h3
  · refine ⟨?_, ?_, ?_⟩
    · show (s.entries.erase n).filter (fun e => e != inet) = l.erase n
      rw [filter_erase n hn, h1]
    · show inet ∈ s.entries.erase n ↔ s.has = true
      rw [← h2]
      exact List.mem_erase_of_ne (Ne.symm hn)
    · show (s.entries.erase n).count inet ≤ 1
      rw [List.count_erase_of_ne (Ne.symm hn)]; exact h3

private theorem run_spec : ∀ (evs : List Ev) (l : List Net) (s : St), Apart evs → Inv l s →
    Inv (others l evs) (run s evs) ∧
      ((run s evs).has = true ↔
        if evs.any (fun e => match e with | .tick (some _) => true | _ => false) then hasDefault (lastTable evs) else s.has = true)
  | [], l, s, _, h => ⟨h, by simp [run]⟩
  | .tick t :: evs, l, s, ha, h => by
    have ha' : Apart evs := fun e he => ha e (List.mem_cons_of_mem _ he)
    obtain ⟨hi, hh⟩ := inv_tick h t
    obtain ⟨h1, h2⟩ := run_spec evs l _ ha' hi
    refine ⟨h1, ?_⟩
    rw [run, h2, hh]
    cases t with
    | none => simp [lastTable, checkGw]
    | some rs =>
      obtain ⟨b, hb, hbd⟩ := checkGw_some rs
      rw [hb]
      by_cases hany : evs.any (fun e => match e with | .tick (some _) => true | _ => false) = true
      · simp [lastTable, hany]
      · simp only [Bool.not_eq_true] at hany
        simp [lastTable, hany, hbd]
  | .add n :: evs, l, s, ha, h => by
    have ha' : Apart evs := fun e he => ha e (List.mem_cons_of_mem _ he)
    have hn : n ≠ inet := fun he => (ha (.add n) (List.mem_cons_self ..)).1 (by rw [he])
    obtain ⟨h1, h2⟩ := run_spec evs (n :: l) _ ha' (inv_other h n hn).1
    refine ⟨h1, ?_⟩
    rw [run, h2]
    simp [lastTable, step]
  | .del n :: evs, l, s, ha, h => by
    have ha' : Apart evs := fun e he => ha e (List.mem_cons_of_mem _ he)
    have hn : n ≠ inet := fun he => (ha (.del n) (List.mem_cons_self ..)).2 (by rw [he])
    obtain ⟨h1, h2⟩ := run_spec evs (l.erase n) _ ha' (inv_other h n hn).2
    refine ⟨h1, ?_⟩
    rw [run, h2]
    simp [lastTable, step]

private theorem lastTable_none : ∀ evs : List Ev, evs.any (fun e => match e with | .tick (some _) => true | _ => false) = false →
    lastTable evs = []
  | [], _ => rfl
  | .tick (some rs) :: es, h => by simp at h
  | .tick none :: es, h => lastTable_none es (by simpa using h)
  | .add n :: es, h => lastTable_none es (by simpa using h)
  | .del n :: es, h => lastTable_none es (by simpa using h)

/-- **The entry for the Internet.**  In every history in which nobody else adds or removes it: it is there, once, exactly if
the last routing table that could be read has a default route that is up with metric 0; the entries of the configuration
for it are gone from the start, and the entries of others are what the others make of them. -/
theorem C140_announced (es : List Net) (evs : List Ev) (ha : Apart evs) :
    (inet ∈ (run (init es) evs).entries ↔ hasDefault (lastTable evs)) ∧ (run (init es) evs).entries.count inet ≤ 1 ∧
    (run (init es) evs).entries.filter (fun e => e != inet) = others (es.filter (fun e => e != inet)) evs := by
  have h0 : Inv (es.filter (fun e => e != inet)) (init es) := by
    refine ⟨?_, ?_, ?_⟩
    · simp only [init, removeAll, List.filter_filter, Bool.and_self]
    · simp [init, removeAll]
    · rw [show (init es).entries.count inet = 0 from List.count_eq_zero_of_not_mem (filter_mem _)]
      exact Nat.zero_le _
  obtain ⟨⟨h1, h2, h3⟩, h4⟩ := run_spec evs _ _ ha h0
  refine ⟨?_, h3, h1⟩
  rw [h2, h4]
  by_cases hany : evs.any (fun e => match e with | .tick (some _) => true | _ => false) = true
  · rw [if_pos hany]
  · rw [if_neg hany, lastTable_none evs (by simpa using hany)]
    simp [init, hasDefault]

/-- a default route comes, another entry is added, the table cannot be read, the route gets a metric -/
example : (run (init [inet, ([10, 0, 0, 0], 8)]) [.tick (some [⟨[0, 0, 0, 0], [0, 0, 0, 0], true, 0⟩]), .add ([1, 2, 3, 4], 32), .tick none]).entries =
      [([1, 2, 3, 4], 32), inet, ([10, 0, 0, 0], 8)] ∧
    (run (init [inet]) [.tick (some [⟨[0, 0, 0, 0], [0, 0, 0, 0], true, 0⟩]), .tick (some [⟨[0, 0, 0, 0], [0, 0, 0, 0], true, 2⟩])]).entries = [] ∧
    Apart [.tick none, .add ([1, 2, 3, 4], 32)] := by
  refine ⟨by decide +kernel, by decide +kernel, ?_⟩
  intro e he
  rcases List.mem_cons.1 he with rfl | he
  · decide
  · rw [List.mem_singleton.1 he]; decide

/-- If somebody else removes the entry while the default route stays, it does not come back: the plugin goes by its own
flag. -/
theorem C140_removed (es : List Net) (rs : List Route) (h : hasDefault rs) (n : Nat) :
    inet ∉ (run (init es) (.tick (some rs) :: .del inet :: List.replicate n (.tick (some rs)))).entries := by
  obtain ⟨b, hb, hbd⟩ := checkGw_some rs
  have hbt : checkGw (some rs) = some true := by rw [hb, hbd.2 h]
  have hs : run (init es) [.tick (some rs), .del inet] = { has := true, entries := removeAll inet es } := by
    have h1 : step (init es) (.tick (some rs)) = { has := true, entries := inet :: removeAll inet es } := by
      unfold step; simp only []; rw [if_pos ⟨hbt, rfl⟩]; rfl
    rw [run, h1, run, run]
    simp [step]
  have hrep : ∀ n, run { has := true, entries := removeAll inet es } (List.replicate n (.tick (some rs))) =
      { has := true, entries := removeAll inet es } := by
    intro n
    induction n with
    | zero => rfl
    | succ n ih =>
      rw [List.replicate_succ, run]
      have : step { has := true, entries := removeAll inet es } (.tick (some rs)) = { has := true, entries := removeAll inet es } := by
        unfold step; simp only []
        rw [if_neg (by simp), if_neg (by rw [hbt]; simp)]
      rw [this, ih]
  have happ : run (init es) (.tick (some rs) :: .del inet :: List.replicate n (.tick (some rs))) =
      run (run (init es) [.tick (some rs), .del inet]) (List.replicate n (.tick (some rs))) := rfl
  rw [happ, hs, hrep]
  exact filter_mem es

end Verif.DynGwPlain
