import Verif.DedupSpec

namespace Verif.Dedup

/-- The circular list holds the messages `rs`. -/
structure Holds (n : Nat) (l : DList) (rs : List Msg) : Prop where
  pos : 0 < n
  max : l.max = n
  len : l.entries.length = n
  newest : l.newest < n
  count : l.count = rs.length
  le : rs.length ≤ n
  at_ : ∀ k, k < rs.length → l.entries[(l.newest + k) % n]? = rs[k]?

theorem isInLoop_zero (l : DList) (m : Msg) (i : Nat) : isInLoop l m 0 i = some false := rfl

theorem isInLoop_succ (l : DList) (m : Msg) (c i : Nat) :
    isInLoop l m (c + 1) i =
      match l.entries[i]? with
      | none => none
      | some e => if e = m then some true else isInLoop l m c ((i + 1) % l.max) := rfl

theorem isInLoop_spec {n : Nat} {l : DList} {rs : List Msg} (h : Holds n l rs) (m : Msg) :
    ∀ c k, k + c = rs.length → isInLoop l m c ((l.newest + k) % n) = some ((rs.drop k).contains m)
  | 0, k, hk => by
    rw [isInLoop_zero, List.drop_eq_nil_of_le (by omega)]; rfl
  | c + 1, k, hk => by
    have hlt : k < rs.length := by omega
    rw [isInLoop_succ, h.at_ k hlt, List.getElem?_eq_getElem hlt]
    simp only []
    have ih := isInLoop_spec h m c (k + 1) (by omega)
    have he : ((l.newest + k) % n + 1) % l.max = (l.newest + (k + 1)) % n := by
      rw [h.max, Nat.mod_add_mod, Nat.add_assoc]
    rw [he, ih, List.drop_eq_getElem_cons hlt]
    by_cases hm : rs[k] = m
    · rw [if_pos hm]; simp [hm]
    · rw [if_neg hm]
      have : (m == rs[k]) = false := by simpa using fun h => hm h.symm
      rw [List.contains_cons, this, Bool.false_or]

theorem isIn_spec {n : Nat} {l : DList} {rs : List Msg} (h : Holds n l rs) (m : Msg) :
    isIn l m = some (rs.contains m) := by
  have := isInLoop_spec h m rs.length 0 (by omega)
  rw [Nat.add_zero, Nat.mod_eq_of_lt h.newest, List.drop_zero, ← h.count] at this
  exact this

theorem incoming_lt {n : Nat} {l : DList} {rs : List Msg} (h : Holds n l rs) : incoming l < n := by
  unfold incoming; rw [h.max]; exact Nat.mod_lt _ h.pos

/-- Going on from the new entry. -/
theorem incoming_add {n : Nat} {l : DList} {rs : List Msg} (h : Holds n l rs) (k : Nat) :
    (incoming l + (k + 1)) % n = (l.newest + k) % n := by
  unfold incoming
  have hp := h.pos
  rw [h.max, Nat.mod_add_mod, show l.newest + n - 1 + (k + 1) = l.newest + k + n by omega, Nat.add_mod_right]

theorem mod_ne {n a k : Nat} (ha : a < n) (hk : 0 < k) (hkn : k < n) : (a + k) % n ≠ a := by
  intro h
  by_cases hlt : a + k < n
  · rw [Nat.mod_eq_of_lt hlt] at h; omega
  · rw [Nat.mod_eq_sub_mod (by omega), Nat.mod_eq_of_lt (by omega)] at h; omega

theorem add_spec {n : Nat} {l : DList} {rs : List Msg} (h : Holds n l rs) (m : Msg) :
    ∃ l', add l m = some l' ∧ Holds n l' ((m :: rs).take n) := by
  have hi := incoming_lt h
  have hlen := h.len
  have hle := h.le
  have hpos := h.pos
  unfold add
  rw [if_pos (by omega)]
  refine ⟨_, rfl, ⟨hpos, h.max, ?_, hi, ?_, ?_, ?_⟩⟩
  · simp only [List.length_set]; exact hlen
  · simp only [List.length_take, List.length_cons]
    rw [h.count, h.max]
    by_cases hc : rs.length < n
    · rw [if_pos hc]; omega
    · rw [if_neg hc]; omega
  · simp only [List.length_take]; omega
  · intro k hk
    simp only [List.length_take, List.length_cons] at hk
    rw [List.getElem?_take_of_lt (by omega)]
    simp only []
    cases k with
    | zero =>
      rw [Nat.add_zero, Nat.mod_eq_of_lt hi, List.getElem?_set_self (by omega)]; rfl
    | succ k =>
      rw [incoming_add h, List.getElem?_set_ne, List.getElem?_cons_succ]
      · exact h.at_ k (by omega)
      · rw [← incoming_add h]
        exact fun e => mod_ne hi (by omega) (by omega) e.symm

theorem init_holds {n : Nat} (hn : 0 < n) (hroom : n * 20 < 2 ^ 64) :
    ∃ l, init n = some l ∧ Holds n l [] := by
  unfold init
  rw [if_neg (by omega)]
  refine ⟨_, rfl, ⟨hn, rfl, ?_, hn, rfl, by simp, by intro k hk; simp at hk⟩⟩
  simp only [List.length_replicate]
  unfold room
  rw [Nat.mod_eq_of_lt hroom]; omega

theorem receive_spec {n : Nat} {l : DList} {rs : List Msg} (c : Cfg) (h : Holds n l rs) (m : Msg) (t : Bool) :
    ∃ l', receive c l m t = some (l', taken c rs m && t) ∧ Holds n l' (remember c n rs m) := by
  unfold receive
  by_cases hm : mine c m
  · have ht : taken c rs m = false := by unfold taken; simp [hm]
    rw [if_pos (show c.loopback = false ∧ m.2 = c.own from hm), ht]
    unfold remember
    rw [ht, if_neg (by simp)]
    exact ⟨l, rfl, h⟩
  · rw [if_neg (show ¬ (c.loopback = false ∧ m.2 = c.own) from hm)]
    cases hd : c.dedup with
    | false =>
      have ht : taken c rs m = true := by unfold taken; simp [hm, hd]
      rw [if_neg (by simp), ht]
      unfold remember
      rw [hd, if_neg (by simp)]
      exact ⟨l, by simp, h⟩
    | true =>
      rw [if_pos rfl, isIn_spec h m]
      cases hc : rs.contains m with
      | true =>
        have ht : taken c rs m = false := by unfold taken; rw [hd, hc]; simp
        simp only []
        unfold remember
        rw [ht, if_neg (by simp)]
        exact ⟨l, rfl, h⟩
      | false =>
        have ht : taken c rs m = true := by unfold taken; rw [hd, hc]; simp [hm]
        obtain ⟨l', hl', hh⟩ := add_spec h m
        simp only []
        rw [hl', ht]
        unfold remember
        rw [ht, hd, if_pos ⟨rfl, rfl⟩]
        exact ⟨l', by simp, hh⟩

theorem run_spec {n : Nat} (c : Cfg) : ∀ (ms : List (Msg × Bool)) {l : DList} {rs : List Msg}, Holds n l rs →
    ∃ l', run c l ms = some (l', sent c n rs ms) ∧ Holds n l' (remembered c n rs ms)
  | [], l, _, h => ⟨l, rfl, h⟩
  | (m, t) :: ms, l, rs, h => by
    obtain ⟨l1, h1, hh1⟩ := receive_spec c h m t
    obtain ⟨l2, h2, hh2⟩ := run_spec c ms hh1
    refine ⟨l2, ?_, hh2⟩
    unfold run
    rw [h1]; simp only []; rw [h2]
    rfl

theorem remembered_take {n : Nat} (c : Cfg) (hd : c.dedup = true) : ∀ (ms : List (Msg × Bool)) (rs : List Msg),
    rs.length ≤ n → remembered c n rs ms = ((takenOf c n rs ms).reverse ++ rs).take n
  | [], rs, h => by simp [remembered, takenOf, List.take_of_length_le h]
  | m :: ms, rs, h => by
    unfold remembered takenOf
    cases ht : taken c rs m.1 with
    | false =>
      have hr : remember c n rs m.1 = rs := by unfold remember; rw [ht, if_neg (by simp)]
      rw [hr, if_neg (by simp)]
      exact remembered_take c hd ms rs h
    | true =>
      have hr : remember c n rs m.1 = (m.1 :: rs).take n := by unfold remember; rw [ht, hd, if_pos ⟨rfl, rfl⟩]
      rw [hr, if_pos rfl, remembered_take c hd ms _ (by simp [List.length_take]; omega)]
      rw [List.reverse_cons, List.append_assoc, List.singleton_append]
      rw [List.take_append, List.take_append (l₂ := m.1 :: rs), List.take_take]
      congr 2
      omega

theorem remembered_append (c : Cfg) (n : Nat) : ∀ (a b : List (Msg × Bool)) (rs : List Msg),
    remembered c n rs (a ++ b) = remembered c n (remembered c n rs a) b
  | [], _, _ => rfl
  | m :: a, b, rs => by
    simp only [List.cons_append, remembered]
    exact remembered_append c n a b _

theorem remembered_len (c : Cfg) (n : Nat) : ∀ (a : List (Msg × Bool)) (rs : List Msg), rs.length ≤ n →
    (remembered c n rs a).length ≤ n
  | [], _, h => h
  | m :: a, rs, h => by
    unfold remembered
    refine remembered_len c n a _ ?_
    unfold remember
    split
    · simp [List.length_take]; omega
    · exact h

end Verif.Dedup
