import Verif.DedupLemmas

/-!
# C141: the PUD plugin drops the messages it has seen among the last ones

`sent` (DedupSpec) is the behaviour with a plain list of the last `n` different messages.
-/

namespace Verif.Dedup

/-- For every depth that fits into the memory, every setting and every series of messages the circular list is never
accessed outside of its memory, and what is sent is what the plain list of the last `n` messages says.

What is missing for the full property: depths of `2 ^ 64 / 20` and more, see `C141_depth`. -/
theorem C141_sent_partial (c : Cfg) (n : Nat) (hn : 0 < n) (hroom : n * 20 < 2 ^ 64) (ms : List (Msg × Bool)) :
    ∃ l, init n = some l ∧ ∃ l', run c l ms = some (l', sent c n [] ms) := by
  obtain ⟨l, hl, hh⟩ := init_holds hn hroom
  obtain ⟨l', h', _⟩ := run_spec c ms hh
  exact ⟨l, hl, l', h'⟩

example : (init 2).bind (fun l => (run ⟨true, true, 9⟩ l
      [((1, 5), true), ((1, 5), true), ((1, 6), true), ((2, 5), true), ((1, 5), true), ((2, 5), true)]).map (·.2)) =
    some [true, false, true, true, true, false] := by decide +kernel

/-- With the detection on, a message is taken a second time only after at least `n` others were taken in between. -/
theorem C141_between (c : Cfg) (n : Nat) (hd : c.dedup = true) (a b : List (Msg × Bool)) (m : Msg) (t : Bool)
    (h1 : taken c (remembered c n [] a) m = true)
    (h2 : taken c (remembered c n [] (a ++ (m, t) :: b)) m = true) :
    n ≤ (takenOf c n (remembered c n [] (a ++ [(m, t)])) b).length := by
  obtain ⟨rs, hrs⟩ : ∃ rs, rs = remembered c n [] a := ⟨_, rfl⟩
  have hlen : rs.length ≤ n := by rw [hrs]; exact remembered_len c n a [] (by simp)
  rw [← hrs] at h1
  have hr : remember c n rs m = (m :: rs).take n := by unfold remember; rw [h1, hd, if_pos ⟨rfl, rfl⟩]
  have e1 : remembered c n [] (a ++ [(m, t)]) = (m :: rs).take n := by
    rw [remembered_append, ← hrs]; unfold remembered; rw [hr]; rfl
  have e2 : remembered c n [] (a ++ (m, t) :: b) = remembered c n ((m :: rs).take n) b := by
    rw [remembered_append, ← hrs]; conv => lhs; unfold remembered
    rw [hr]
  rw [e1]
  rw [e2, remembered_take c hd b _ (by simp [List.length_take]; omega)] at h2
  by_cases hlt : (takenOf c n ((m :: rs).take n) b).length < n
  · exfalso
    have hmem : m ∈ ((takenOf c n ((m :: rs).take n) b).reverse ++ (m :: rs).take n).take n := by
      rw [List.take_append, List.mem_append]
      right
      rw [List.length_reverse, List.take_take]
      obtain ⟨j, hj⟩ : ∃ j, min (n - (takenOf c n ((m :: rs).take n) b).length) n = j + 1 :=
        ⟨min (n - (takenOf c n ((m :: rs).take n) b).length) n - 1, by omega⟩
      rw [hj, List.take_succ_cons]
      exact List.mem_cons_self
    unfold taken at h2
    rw [hd, List.contains_iff_mem.mpr hmem] at h2
    simp at h2
  · omega

example : taken ⟨true, true, 9⟩ (remembered ⟨true, true, 9⟩ 1 [] [((1, 5), true), ((2, 5), true)]) (1, 5) = true ∧
    takenOf ⟨true, true, 9⟩ 1 (remembered ⟨true, true, 9⟩ 1 [] [((1, 5), true)]) [((2, 5), true)] = [(2, 5)] := by
  decide +kernel

/-- Messages of this node are never sent without loopback, and leave no trace. -/
theorem C141_own (c : Cfg) (l : DList) (m : Msg) (t : Bool) (h : c.loopback = false) (hm : m.2 = c.own) :
    receive c l m t = some (l, false) := by
  unfold receive; rw [if_pos ⟨h, hm⟩]

example : receive ⟨false, true, 5⟩ ⟨1, [(0, 0)], 0, 0⟩ (1, 5) true = some (⟨1, [(0, 0)], 0, 0⟩, false) := by decide

/-- Without the detection of duplicates every other message is sent if it has a text. -/
theorem C141_off (c : Cfg) (l : DList) (m : Msg) (t : Bool) (hd : c.dedup = false)
    (h : c.loopback = true ∨ m.2 ≠ c.own) : receive c l m t = some (l, t) := by
  unfold receive
  rw [if_neg (by rintro ⟨h1, h2⟩; rcases h with h | h; · rw [h1] at h; cases h
                 exact h h2), if_neg (by rw [hd]; simp)]

example : receive ⟨false, false, 9⟩ ⟨1, [(1, 5)], 1, 0⟩ (1, 5) true = some (⟨1, [(1, 5)], 1, 0⟩, true) := by decide

/-- A depth of 0 is refused. -/
theorem C141_zero : init 0 = none := rfl

/-- A depth of `2 ^ 62` is accepted, but the size of the memory overflows to 0: the first message is written outside
of it. -/
theorem C141_depth : ∃ l, init (2 ^ 62) = some l ∧
    ∀ (c : Cfg) (m : Msg) (t : Bool), c.loopback = true → c.dedup = true → receive c l m t = none := by
  refine ⟨⟨2 ^ 62, [], 0, 0⟩, by decide +kernel, fun c m t hl hd => ?_⟩
  have hi : isIn ⟨2 ^ 62, [], 0, 0⟩ m = some false := rfl
  have ha : add ⟨2 ^ 62, [], 0, 0⟩ m = none := by
    unfold add
    rw [if_neg (by simp)]
  unfold receive
  rw [if_neg (by rw [hl]; simp), if_pos hd, hi]
  simp only []
  rw [ha]

end Verif.Dedup
