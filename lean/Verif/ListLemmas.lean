import Verif.ListModel

/-!
# Rings of nodes: lemmas for C30
-/

namespace Verif.LList

/-- following the pointers from `a` over `xs` leads to `b`, in both directions -/
def Path (σ : Heap) : Nat → List Nat → Nat → Prop
  | a, [], b => σ.next a = some b ∧ σ.prev b = some a
  | a, x :: xs, b => σ.next a = some x ∧ σ.prev x = some a ∧ Path σ x xs b

theorem Path.append {σ : Heap} {x : Nat} {ys : List Nat} {b : Nat} : ∀ {xs : List Nat} {a : Nat},
    Path σ a (xs ++ x :: ys) b ↔ Path σ a xs x ∧ Path σ x ys b
  | [], a => by simp [Path, and_assoc]
  | y :: xs, a => by
    simp only [List.cons_append, Path]
    rw [Path.append (xs := xs)]
    simp only [and_assoc]

theorem Path.frame {σ τ : Heap} {b : Nat} : ∀ {xs : List Nat} {a : Nat}, Path σ a xs b →
    (∀ y ∈ a :: xs, τ.next y = σ.next y) → (∀ y, y ∈ xs ∨ y = b → τ.prev y = σ.prev y) → Path τ a xs b
  | [], a, h, h1, h2 => by
    refine ⟨?_, ?_⟩
    · rw [h1 a (by simp)]; exact h.1
    · rw [h2 b (by simp)]; exact h.2
  | x :: xs, a, h, h1, h2 => by
    refine ⟨?_, ?_, ?_⟩
    · rw [h1 a (by simp)]; exact h.1
    · rw [h2 x (by simp)]; exact h.2.1
    · refine Path.frame h.2.2 (fun y hy => h1 y (by simp at hy ⊢; right; exact hy)) (fun y hy => h2 y ?_)
      rcases hy with hy | hy
      · left; simp [hy]
      · right; exact hy

/-- the last node of a path -/
def lastOf : Nat → List Nat → Nat
  | a, [] => a
  | _, x :: xs => lastOf x xs

theorem lastOf_mem : ∀ (xs : List Nat) (a : Nat), lastOf a xs ∈ a :: xs
  | [], a => by simp [lastOf]
  | x :: xs, a => by
    have := lastOf_mem xs x
    simp only [lastOf]
    exact List.mem_cons_of_mem _ this

theorem Path.last {σ : Heap} {b : Nat} : ∀ {xs : List Nat} {a : Nat}, Path σ a xs b →
    σ.prev b = some (lastOf a xs) ∧ σ.next (lastOf a xs) = some b
  | [], _, h => ⟨h.2, h.1⟩
  | x :: xs, _, h => Path.last (a := x) (xs := xs) h.2.2

/-- a path led to another end -/
theorem Path.redirect {σ τ : Heap} {b c : Nat} : ∀ {xs : List Nat} {a : Nat}, Path σ a xs c → (a :: xs).Nodup →
    (∀ y ∈ a :: xs, y ≠ lastOf a xs → τ.next y = σ.next y) → (∀ y ∈ xs, τ.prev y = σ.prev y) →
    τ.next (lastOf a xs) = some b → τ.prev b = some (lastOf a xs) → Path τ a xs b
  | [], _, _, _, _, _, h3, h4 => ⟨h3, h4⟩
  | x :: xs, a, h, hn, h1, h2, h3, h4 => by
    have hn' := List.nodup_cons.1 hn
    refine ⟨?_, ?_, ?_⟩
    · rw [h1 a (by simp)]
      · exact h.1
      · intro e
        apply hn'.1
        rw [e]
        exact lastOf_mem xs x
    · rw [h2 x (by simp)]; exact h.2.1
    · exact Path.redirect h.2.2 hn'.2 (fun y hy => h1 y (List.mem_cons_of_mem _ hy))
        (fun y hy => h2 y (List.mem_cons_of_mem _ hy)) h3 h4

/-- a closed ring, up to rotation -/
def Ring (σ : Heap) : List Nat → Prop
  | [] => False
  | a :: xs => Path σ a xs a

theorem Ring.rotate {σ : Heap} {xs ys : List Nat} (h : Ring σ (xs ++ ys)) : Ring σ (ys ++ xs) := by
  cases xs with
  | nil => simpa using h
  | cons x xs =>
    cases ys with
    | nil => simpa using h
    | cons y ys =>
      have h' : Path σ x (xs ++ y :: ys) x := h
      rw [Path.append] at h'
      show Path σ y (ys ++ x :: xs) y
      rw [Path.append]
      exact ⟨h'.2, h'.1⟩

/-- the other direction -/
def dual (σ : Heap) : Heap := ⟨σ.prev, σ.next⟩

theorem Path.dual {σ : Heap} : ∀ {xs : List Nat} {a b : Nat}, Path σ a xs b → Path (dual σ) b xs.reverse a
  | [], _, _, h => ⟨h.2, h.1⟩
  | x :: xs, a, b, h => by
    rw [List.reverse_cons, Path.append]
    exact ⟨Path.dual h.2.2, h.2.1, h.1⟩

theorem Ring.dual {σ : Heap} {a : Nat} {xs : List Nat} (h : Ring σ (a :: xs)) : Ring (dual σ) (a :: xs.reverse) :=
  Path.dual h

theorem Ring.links {σ : Heap} {L : List Nat} {a : Nat} (h : Ring σ L) (ha : a ∈ L) :
    (∃ b ∈ L, σ.next a = some b) ∧ (∃ b ∈ L, σ.prev a = some b) := by
  obtain ⟨xs, ys, rfl⟩ := List.append_of_mem ha
  have h' : Path σ a (ys ++ xs) a := h.rotate
  constructor
  · cases hz : ys ++ xs with
    | nil => rw [hz] at h'; exact ⟨a, by simp, h'.1⟩
    | cons z zs =>
      rw [hz] at h'
      refine ⟨z, ?_, h'.1⟩
      have : z ∈ ys ++ xs := by rw [hz]; simp
      simp at this ⊢
      rcases this with h | h <;> simp [h]
  · refine ⟨lastOf a (ys ++ xs), ?_, (Path.last h').1⟩
    have := lastOf_mem (ys ++ xs) a
    simp at this ⊢
    rcases this with h | h | h <;> simp [h]

theorem Ring.frame {σ τ : Heap} {L : List Nat} (h : Ring σ L)
    (hf : ∀ y ∈ L, τ.next y = σ.next y ∧ τ.prev y = σ.prev y) : Ring τ L := by
  cases L with
  | nil => exact h
  | cons a xs =>
    refine Path.frame h (fun y hy => (hf y hy).1) (fun y hy => (hf y ?_).2)
    rcases hy with hy | hy <;> simp [hy]

/-- what insertion does, seen from the insertion point -/
theorem addAfter_ring {σ : Heap} {p n : Nat} {ys : List Nat} (h : Ring σ (p :: ys)) (hnd : (p :: ys).Nodup)
    (hn : n ∉ p :: ys) :
    ∃ τ, addAfter σ p n = some τ ∧ Ring τ (p :: n :: ys) ∧
      ∀ y, y ∉ p :: ys → y ≠ n → τ.next y = σ.next y ∧ τ.prev y = σ.prev y := by
  have hnp : n ≠ p := fun e => hn (by simp [e])
  have hpn : p ≠ n := fun e => hnp e.symm
  obtain ⟨q, hq, hqm, hpath⟩ : ∃ q, σ.next p = some q ∧ q ∈ p :: ys ∧
      ((ys = [] ∧ q = p) ∨ ∃ zs, ys = q :: zs ∧ Path σ q zs p) := by
    cases ys with
    | nil => exact ⟨p, h.1, by simp, .inl ⟨rfl, rfl⟩⟩
    | cons y zs => exact ⟨y, h.1, by simp, .inr ⟨zs, rfl, h.2.2⟩⟩
  have hqn : q ≠ n := fun e => hn (e ▸ hqm)
  have hnq : n ≠ q := fun e => hqn e.symm
  have e : addAfter σ p n = some
      ⟨upd (upd σ.next n (some q)) p (some n), upd (upd σ.prev n (some p)) q (some n)⟩ := by
    simp [addAfter, Heap.setNext, Heap.setPrev, upd, hpn, hq]
  refine ⟨_, e, ?_, ?_⟩
  · refine ⟨by simp [upd], by simp [upd, hnq], ?_⟩
    rcases hpath with ⟨rfl, rfl⟩ | ⟨zs, rfl, hp⟩
    · exact ⟨by simp [upd, hnp], by simp [upd]⟩
    · refine ⟨by simp [upd, hnp], by simp [upd], ?_⟩
      simp only [List.nodup_cons, List.mem_cons, not_or] at hnd hn
      refine hp.frame ?_ ?_
      · intro y hy
        simp only [upd]
        rw [if_neg, if_neg]
        · intro e; subst e; simp at hy; rcases hy with hy | hy
          · exact hqn hy.symm
          · exact hn.2.2 hy
        · intro e; subst e; simp at hy; rcases hy with hy | hy
          · exact hnd.1.1 hy
          · exact hnd.1.2 hy
      · intro y hy
        simp only [upd]
        rw [if_neg, if_neg]
        · rintro rfl
          rcases hy with hy | hy
          · exact hn.2.2 hy
          · exact hnp hy
        · rintro rfl
          rcases hy with hy | hy
          · exact hnd.2.1 hy
          · exact hnd.1.1 hy.symm
  · intro y hy hyn
    have h1 : y ≠ p := fun e => hy (by simp [e])
    have h2 : y ≠ q := fun e => hy (e ▸ hqm)
    simp [upd, h1, h2, hyn]

theorem addBefore_dual (σ : Heap) (p n : Nat) : addBefore σ p n = (addAfter (dual σ) p n).map dual := by
  simp only [addBefore, addAfter, Heap.setNext, Heap.setPrev, dual, Option.map_map]
  rfl

theorem addBefore_ring {σ : Heap} {p n : Nat} {ys : List Nat} (h : Ring σ (p :: ys)) (hnd : (p :: ys).Nodup)
    (hn : n ∉ p :: ys) :
    ∃ τ, addBefore σ p n = some τ ∧ Ring τ (p :: (ys ++ [n])) ∧
      ∀ y, y ∉ p :: ys → y ≠ n → τ.next y = σ.next y ∧ τ.prev y = σ.prev y := by
  obtain ⟨τ, h1, h2, h3⟩ := addAfter_ring (n := n) h.dual (by simpa [(List.reverse_perm ys).nodup_iff] using hnd) (by simpa using hn)
  refine ⟨dual τ, by rw [addBefore_dual, h1]; rfl, ?_, ?_⟩
  · have := h2.dual
    simpa using this
  · intro y hy hyn
    have := h3 y (by simpa using hy) hyn
    exact ⟨this.2, this.1⟩

theorem remove_ring {σ : Heap} {d y : Nat} {ys : List Nat} (h : Ring σ (d :: y :: ys)) (hnd : (d :: y :: ys).Nodup) :
    ∃ τ, remove σ d = some τ ∧ Ring τ (y :: ys) ∧ τ.next d = none ∧ τ.prev d = none ∧
      ∀ z, z ∉ d :: y :: ys → τ.next z = σ.next z ∧ τ.prev z = σ.prev z := by
  obtain ⟨h1, h2, h3⟩ := h
  obtain ⟨l1, l2⟩ := h3.last
  have hlm := lastOf_mem ys y
  obtain ⟨l, hl⟩ : ∃ l, lastOf y ys = l := ⟨_, rfl⟩
  have hnd' := List.nodup_cons.1 hnd
  have hld : l ≠ d := by rw [← hl]; exact fun e => hnd'.1 (e ▸ hlm)
  have hdy : d ≠ y := fun e => hnd'.1 (by simp [e])
  have e : remove σ d = some ⟨upd (upd σ.next l (some y)) d none, upd (upd σ.prev y (some l)) d none⟩ := by
    simp [remove, nodeInit, Heap.setNext, Heap.setPrev, upd, h1, l1, hl]
  refine ⟨_, e, ?_, by simp [upd], by simp [upd], ?_⟩
  · refine Path.redirect h3 hnd'.2 ?_ ?_ ?_ ?_
    · intro z hz hzl
      have : z ≠ d := fun e => hnd'.1 (e ▸ hz)
      rw [hl] at hzl
      simp [upd, this, hzl]
    · intro z hz
      have h1 : z ≠ d := fun e => hnd'.1 (by rw [← e]; exact List.mem_cons_of_mem _ hz)
      have h2 : z ≠ y := fun e => (List.nodup_cons.1 hnd'.2).1 (e ▸ hz)
      simp [upd, h1, h2]
    · rw [hl]; simp [upd, hld]
    · rw [hl]; simp [upd, hdy.symm]
  · intro z hz
    have h1 : z ≠ d := fun e => hz (by simp [e])
    have h2 : z ≠ y := fun e => hz (by simp [e])
    have h3 : z ≠ l := fun e => hz (by rw [e, ← hl]; exact List.mem_cons_of_mem _ hlm)
    simp [upd, h1, h2, h3]

theorem isEmpty_ring {σ : Heap} {h : Nat} {xs : List Nat} (hr : Ring σ (h :: xs)) (hnd : (h :: xs).Nodup) :
    isEmpty σ h = true ↔ xs = [] := by
  cases xs with
  | nil => simp [isEmpty, hr.1, hr.2]
  | cons x xs =>
    simp only [isEmpty, reduceCtorEq, iff_false, Bool.and_eq_true, beq_iff_eq, not_and]
    intro _ h2
    rw [hr.1] at h2
    have : x = h := by simpa using h2
    simp [this] at hnd

theorem merge_ring {σ : Heap} {h1 h2 : Nat} {xs ys : List Nat} (r1 : Ring σ (h1 :: xs)) (r2 : Ring σ (h2 :: ys))
    (hnd : ((h1 :: xs) ++ (h2 :: ys)).Nodup) :
    ∃ τ, merge σ h1 h2 = some τ ∧ Ring τ (h1 :: (ys ++ xs)) ∧ Ring τ [h2] ∧
      ∀ z, z ∉ h1 :: xs → z ∉ h2 :: ys → τ.next z = σ.next z ∧ τ.prev z = σ.prev z := by
  obtain ⟨nd1, nd2, dis⟩ := List.nodup_append.1 hnd
  have dis' : ∀ a ∈ h1 :: xs, ∀ b ∈ h2 :: ys, a ≠ b := dis
  have hemp := isEmpty_ring r2 nd2
  unfold merge
  cases ys with
  | nil =>
    rw [if_pos (hemp.2 rfl)]
    exact ⟨σ, rfl, r1, r2, fun _ _ _ => ⟨rfl, rfl⟩⟩
  | cons y ys =>
    rw [if_neg (by rw [hemp]; simp)]
    obtain ⟨a1, a2, a3⟩ := r2
    obtain ⟨l1, l2⟩ := a3.last
    have hlm := lastOf_mem ys y
    obtain ⟨l, hl⟩ : ∃ l, lastOf y ys = l := ⟨_, rfl⟩
    rw [hl] at l1 l2 hlm
    obtain ⟨q, hq, hqm, hpath⟩ : ∃ q, σ.next h1 = some q ∧ q ∈ h1 :: xs ∧
        ((xs = [] ∧ q = h1) ∨ ∃ zs, xs = q :: zs ∧ Path σ q zs h1) := by
      cases xs with
      | nil => exact ⟨h1, r1.1, by simp, .inl ⟨rfl, rfl⟩⟩
      | cons y zs => exact ⟨y, r1.1, by simp, .inr ⟨zs, rfl, r1.2.2⟩⟩
    have n2 := List.nodup_cons.1 nd2
    have h21 : h2 ≠ h1 := fun e => dis' h1 (by simp) h2 (by simp) e.symm
    have hlh1 : l ≠ h1 := fun e => dis' h1 (by simp) l (List.mem_cons_of_mem _ hlm) e.symm
    have hlh2 : l ≠ h2 := fun e => n2.1 (e ▸ hlm)
    have hyh1 : y ≠ h1 := fun e => dis' h1 (by simp) y (by simp) e.symm
    have hyh2 : y ≠ h2 := fun e => n2.1 (by simp [e])
    have hqh2 : q ≠ h2 := dis' q hqm h2 (by simp)
    have hqy : q ≠ y := dis' q hqm y (by simp)
    have hql : q ≠ l := dis' q hqm l (List.mem_cons_of_mem _ hlm)
    refine ⟨⟨upd (upd (upd σ.next l (some q)) h1 (some y)) h2 (some h2),
      upd (upd (upd σ.prev q (some l)) y (some h1)) h2 (some h2)⟩, ?_, ?_, ?_, ?_⟩
    · simp [Heap.setNext, Heap.setPrev, upd, hq, l1, a1, hlh2.symm, h21]
    · refine ⟨by simp [upd, h21.symm], by simp [upd, hyh2], ?_⟩
      have red : Path (⟨upd (upd (upd σ.next l (some q)) h1 (some y)) h2 (some h2),
          upd (upd (upd σ.prev q (some l)) y (some h1)) h2 (some h2)⟩ : Heap) y ys q := by
        refine Path.redirect a3 n2.2 ?_ ?_ ?_ ?_
        · intro z hz hzl
          rw [hl] at hzl
          have b1 : z ≠ h2 := fun e => n2.1 (e ▸ hz)
          have b2 : z ≠ h1 := fun e => dis' h1 (by simp) z (List.mem_cons_of_mem _ hz) e.symm
          simp [upd, b1, b2, hzl]
        · intro z hz
          have b1 : z ≠ h2 := fun e => n2.1 (by rw [← e]; exact List.mem_cons_of_mem _ hz)
          have b2 : z ≠ y := fun e => (List.nodup_cons.1 n2.2).1 (e ▸ hz)
          have b3 : z ≠ q := fun e => dis' q hqm z (List.mem_cons_of_mem _ (List.mem_cons_of_mem _ hz)) e.symm
          simp [upd, b1, b2, b3]
        · rw [hl]; simp [upd, hlh2, hlh1]
        · rw [hl]; simp [upd, hqh2, hqy]
      rcases hpath with ⟨rfl, rfl⟩ | ⟨zs, rfl, hp⟩
      · simpa using red
      · show Path _ y (ys ++ q :: zs) h1
        rw [Path.append]
        refine ⟨red, ?_⟩
        simp only [List.nodup_cons, List.mem_cons, not_or] at nd1
        refine hp.frame ?_ ?_
        · intro z hz
          have b0 : z ∈ h1 :: q :: zs := List.mem_cons_of_mem _ hz
          have b1 : z ≠ h2 := dis' z b0 h2 (by simp)
          have b2 : z ≠ h1 := by
            intro e; subst e; simp at hz; rcases hz with hz | hz
            · exact nd1.1.1 hz
            · exact nd1.1.2 hz
          have b3 : z ≠ l := dis' z b0 l (List.mem_cons_of_mem _ hlm)
          simp [upd, b1, b2, b3]
        · intro z hz
          have b0 : z ∈ h1 :: q :: zs := by rcases hz with hz | hz <;> simp [hz]
          have b1 : z ≠ h2 := dis' z b0 h2 (by simp)
          have b2 : z ≠ y := dis' z b0 y (by simp)
          have b3 : z ≠ q := by
            intro e; subst e
            rcases hz with hz | hz
            · exact nd1.2.1 hz
            · exact nd1.1.1 hz.symm
          simp [upd, b1, b2, b3]
    · exact ⟨by simp [upd], by simp [upd]⟩
    · intro z hz1 hz2
      have b1 : z ≠ h2 := fun e => hz2 (by simp [e])
      have b2 : z ≠ h1 := fun e => hz1 (by simp [e])
      have b3 : z ≠ l := fun e => hz2 (by rw [e]; exact List.mem_cons_of_mem _ hlm)
      have b4 : z ≠ y := fun e => hz2 (by simp [e])
      have b5 : z ≠ q := fun e => hz1 (e ▸ hqm)
      simp [upd, b1, b2, b3, b4, b5]

end Verif.LList
