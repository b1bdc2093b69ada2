import Verif.AvlModel

/-!
# Balance and order of the tree: lemmas for C29
-/

namespace Verif.Avl

def height : Tree → Nat
  | .nil => 0
  | .node l _ _ _ r => max (height l) (height r) + 1

/-- identities and keys, in order -/
def inorder : Tree → List (Nat × Nat)
  | .nil => []
  | .node l i k _ r => inorder l ++ (i, k) :: inorder r

/-- every stored balance is the difference of the heights and at most 1 -/
def Bal : Tree → Prop
  | .nil => True
  | .node l _ _ b r => Bal l ∧ Bal r ∧ b = (height r : Int) - height l ∧ -1 ≤ b ∧ b ≤ 1

/-- the path is balanced if a tree of height `h` is put at its end -/
def BalPath : List Frame → Nat → Prop
  | [], _ => True
  | .L _ _ b r :: p, h => Bal r ∧ b = (height r : Int) - h ∧ -1 ≤ b ∧ b ≤ 1 ∧ BalPath p (max h (height r) + 1)
  | .R l _ _ b :: p, h => Bal l ∧ b = (h : Int) - height l ∧ -1 ≤ b ∧ b ≤ 1 ∧ BalPath p (max (height l) h + 1)

def pre : List Frame → List (Nat × Nat)
  | [] => []
  | .L _ _ _ _ :: p => pre p
  | .R l i k _ :: p => pre p ++ inorder l ++ [(i, k)]

def suf : List Frame → List (Nat × Nat)
  | [] => []
  | .L i k _ r :: p => (i, k) :: inorder r ++ suf p
  | .R _ _ _ _ :: p => suf p

theorem inorder_plug : ∀ (p : List Frame) (t : Tree), inorder (plug p t) = pre p ++ inorder t ++ suf p
  | [], t => by simp [plug, pre, suf]
  | .L i k b r :: p, t => by
    simp [plug, pre, suf, inorder_plug p, inorder]
  | .R l i k b :: p, t => by
    simp [plug, pre, suf, inorder_plug p, inorder]

theorem bal_plug : ∀ (p : List Frame) (t : Tree), Bal t → BalPath p (height t) → Bal (plug p t)
  | [], _, h, _ => h
  | .L _ _ _ _ :: p, _, h, hp => bal_plug p _ ⟨h, hp.1, hp.2.1, hp.2.2.1, hp.2.2.2.1⟩ hp.2.2.2.2
  | .R _ _ _ _ :: p, _, h, hp => bal_plug p _ ⟨hp.1, h, hp.2.1, hp.2.2.1, hp.2.2.2.1⟩ hp.2.2.2.2

theorem balPath_of_plug : ∀ (p : List Frame) (t : Tree), Bal (plug p t) → Bal t ∧ BalPath p (height t)
  | [], t, h => ⟨h, trivial⟩
  | .L i k b r :: p, t, h => by
    obtain ⟨h1, h2⟩ := balPath_of_plug p _ h
    exact ⟨h1.1, h1.2.1, h1.2.2.1, h1.2.2.2.1, h1.2.2.2.2, h2⟩
  | .R l i k b :: p, t, h => by
    obtain ⟨h1, h2⟩ := balPath_of_plug p _ h
    exact ⟨h1.2.1, h1.1, h1.2.2.1, h1.2.2.2.1, h1.2.2.2.2, h2⟩

/-- the left subtree is two higher: the repair -/
theorem repairL {t r : Tree} {id k : Nat} {b : Int} (ht : Bal t) (hr : Bal r) (hh : height t = height r + 2) (hb : b = -2) :
    ∃ tb, balance t = some tb ∧
      (tb = -1 ∨ tb = 0 → ∃ t', rotateRight (.node t id k b r) = some t' ∧ Bal t' ∧
        inorder t' = inorder (.node t id k b r) ∧ (tb = -1 → height t' = height r + 2) ∧ (tb = 0 → height t' = height r + 3)) ∧
      (tb ≠ -1 ∧ tb ≠ 0 → ∃ t1 t', rotateLeft t = some t1 ∧ rotateRight (.node t1 id k b r) = some t' ∧ Bal t' ∧
        inorder t' = inorder (.node t id k b r) ∧ height t' = height r + 2) := by
  cases t with
  | nil => simp [height] at hh
  | node ll li lk lb lr =>
    obtain ⟨h1, h2, h3, h4, h5⟩ := ht
    simp only [height] at hh
    refine ⟨lb, rfl, ?_, ?_⟩
    · intro hlb
      refine ⟨_, rfl, ?_, by simp [inorder], ?_, ?_⟩
      · simp only [Bal, height]
        refine ⟨h1, ⟨h2, hr, ?_, ?_, ?_⟩, ?_, ?_, ?_⟩ <;> omega
      · intro; simp only [height]; omega
      · intro; simp only [height]; omega
    · intro hlb
      cases lr with
      | nil => simp [height] at h3 hh; omega
      | node al ai ak ab ar =>
        obtain ⟨g1, g2, g3, g4, g5⟩ := h2
        simp only [height] at h3 hh
        refine ⟨_, _, rfl, rfl, ?_, by simp [inorder], ?_⟩
        · simp only [Bal, height]
          refine ⟨⟨h1, g1, ?_, ?_, ?_⟩, ⟨g2, hr, ?_, ?_, ?_⟩, ?_, ?_, ?_⟩ <;> omega
        · simp only [height]; omega

theorem repairR {t l : Tree} {id k : Nat} {b : Int} (ht : Bal t) (hl : Bal l) (hh : height t = height l + 2) (hb : b = 2) :
    ∃ tb, balance t = some tb ∧
      (tb = 1 ∨ tb = 0 → ∃ t', rotateLeft (.node l id k b t) = some t' ∧ Bal t' ∧
        inorder t' = inorder (.node l id k b t) ∧ (tb = 1 → height t' = height l + 2) ∧ (tb = 0 → height t' = height l + 3)) ∧
      (tb ≠ 1 ∧ tb ≠ 0 → ∃ t1 t', rotateRight t = some t1 ∧ rotateLeft (.node l id k b t1) = some t' ∧ Bal t' ∧
        inorder t' = inorder (.node l id k b t) ∧ height t' = height l + 2) := by
  cases t with
  | nil => simp [height] at hh
  | node rl ri rk rb rr =>
    obtain ⟨h1, h2, h3, h4, h5⟩ := ht
    simp only [height] at hh
    refine ⟨rb, rfl, ?_, ?_⟩
    · intro hrb
      refine ⟨_, rfl, ?_, by simp [inorder], ?_, ?_⟩
      · simp only [Bal, height]
        refine ⟨⟨hl, h1, ?_, ?_, ?_⟩, h2, ?_, ?_, ?_⟩ <;> omega
      · intro; simp only [height]; omega
      · intro; simp only [height]; omega
    · intro hrb
      cases rl with
      | nil => simp [height] at h3 hh; omega
      | node al ai ak ab ar =>
        obtain ⟨g1, g2, g3, g4, g5⟩ := h1
        simp only [height] at h3 hh
        refine ⟨_, _, rfl, rfl, ?_, by simp [inorder], ?_⟩
        · simp only [Bal, height]
          refine ⟨⟨hl, g1, ?_, ?_, ?_⟩, ⟨g2, h2, ?_, ?_, ?_⟩, ?_, ?_, ?_⟩ <;> omega
        · simp only [height]; omega

theorem postInsert_ok : ∀ (p : List Frame) (t : Tree) (h : Nat), Bal t → height t = h + 1 →
    (∃ tb, balance t = some tb ∧ tb ≠ 0) → BalPath p h →
    ∃ t', postInsert t p = some t' ∧ Bal t' ∧ inorder t' = pre p ++ inorder t ++ suf p
  | [], t, h, ht, _, _, _ => ⟨t, rfl, ht, by simp [pre, suf]⟩
  | .L id k b r :: p, t, h, ht, hh, ⟨tb, htb, hne⟩, hp => by
    obtain ⟨p1, p2, p3, p4, p5⟩ := hp
    simp only [postInsert]
    by_cases e0 : b - 1 = 0
    · rw [if_pos e0]
      refine ⟨_, rfl, ?_, by simp [inorder_plug, inorder, pre, suf]⟩
      refine bal_plug _ _ ⟨ht, p1, by omega, by omega, by omega⟩ ?_
      simp only [height]
      rw [show max (height t) (height r) = max h (height r) by omega]
      exact p5
    rw [if_neg e0]
    by_cases e1 : b - 1 = -1
    · rw [if_pos e1]
      obtain ⟨t', q1, q2, q3⟩ := postInsert_ok p (.node t id k (b - 1) r) (max h (height r) + 1)
        ⟨ht, p1, by omega, by omega, by omega⟩ (by simp only [height]; omega) ⟨_, rfl, by omega⟩ p5
      exact ⟨t', q1, q2, by rw [q3]; simp [inorder, pre, suf]⟩
    have hm : max h (height r) + 1 = height r + 2 := by omega
    rw [if_neg e1, htb, Option.bind_some]
    obtain ⟨tb', q1, q2, q3⟩ := repairL (id := id) (k := k) (b := b - 1) ht p1 (by omega) (by omega)
    rw [htb] at q1; cases q1
    by_cases e2 : tb = -1
    · rw [if_pos e2]
      obtain ⟨t', w1, w2, w3, w4, _⟩ := q2 (.inl e2)
      rw [w1, Option.map_some]
      refine ⟨_, rfl, bal_plug _ _ w2 ?_, by rw [inorder_plug, w3]; simp [inorder, pre, suf]⟩
      rw [w4 e2]
      rw [hm] at p5
      exact p5
    · rw [if_neg e2]
      obtain ⟨t1, t', w1, w2, w3, w4, w5⟩ := q3 ⟨e2, hne⟩
      rw [w1, Option.bind_some, w2, Option.map_some]
      refine ⟨_, rfl, bal_plug _ _ w3 ?_, by rw [inorder_plug, w4]; simp [inorder, pre, suf]⟩
      rw [w5]
      rw [hm] at p5
      exact p5
  | .R l id k b :: p, t, h, ht, hh, ⟨tb, htb, hne⟩, hp => by
    obtain ⟨p1, p2, p3, p4, p5⟩ := hp
    simp only [postInsert]
    by_cases e0 : b + 1 = 0
    · rw [if_pos e0]
      refine ⟨_, rfl, ?_, by simp [inorder_plug, inorder, pre, suf]⟩
      refine bal_plug _ _ ⟨p1, ht, by omega, by omega, by omega⟩ ?_
      simp only [height]
      rw [show max (height l) (height t) = max (height l) h by omega]
      exact p5
    rw [if_neg e0]
    by_cases e1 : b + 1 = 1
    · rw [if_pos e1]
      obtain ⟨t', q1, q2, q3⟩ := postInsert_ok p (.node l id k (b + 1) t) (max (height l) h + 1)
        ⟨p1, ht, by omega, by omega, by omega⟩ (by simp only [height]; omega) ⟨_, rfl, by omega⟩ p5
      exact ⟨t', q1, q2, by rw [q3]; simp [inorder, pre, suf]⟩
    have hm : max (height l) h + 1 = height l + 2 := by omega
    rw [if_neg e1, htb, Option.bind_some]
    obtain ⟨tb', q1, q2, q3⟩ := repairR (id := id) (k := k) (b := b + 1) ht p1 (by omega) (by omega)
    rw [htb] at q1; cases q1
    by_cases e2 : tb = 1
    · rw [if_pos e2]
      obtain ⟨t', w1, w2, w3, w4, _⟩ := q2 (.inl e2)
      rw [w1, Option.map_some]
      refine ⟨_, rfl, bal_plug _ _ w2 ?_, by rw [inorder_plug, w3]; simp [inorder, pre, suf]⟩
      rw [w4 e2]
      rw [hm] at p5
      exact p5
    · rw [if_neg e2]
      obtain ⟨t1, t', w1, w2, w3, w4, w5⟩ := q3 ⟨e2, hne⟩
      rw [w1, Option.bind_some, w2, Option.map_some]
      refine ⟨_, rfl, bal_plug _ _ w3 ?_, by rw [inorder_plug, w4]; simp [inorder, pre, suf]⟩
      rw [w5]
      rw [hm] at p5
      exact p5

theorem postDelete_ok : ∀ (p : List Frame) (t : Tree), Bal t → BalPath p (height t + 1) →
    ∃ t', postDelete t p = some t' ∧ Bal t' ∧ inorder t' = pre p ++ inorder t ++ suf p
  | [], t, ht, _ => ⟨t, rfl, ht, by simp [pre, suf]⟩
  | .L id k b r :: p, t, ht, hp => by
    obtain ⟨p1, p2, p3, p4, p5⟩ := hp
    simp only [postDelete]
    by_cases e0 : b + 1 = 0
    · rw [if_pos e0]
      have hp' : BalPath p (height (.node t id k (b + 1) r) + 1) := by
        simp only [height]
        rw [show max (height t + 1) (height r) + 1 = max (height t) (height r) + 1 + 1 by omega] at p5
        exact p5
      obtain ⟨t', q1, q2, q3⟩ := postDelete_ok p (.node t id k (b + 1) r) ⟨ht, p1, by omega, by omega, by omega⟩ hp'
      exact ⟨t', q1, q2, by rw [q3]; simp [inorder, pre, suf]⟩
    rw [if_neg e0]
    by_cases e1 : b + 1 = 1
    · rw [if_pos e1]
      refine ⟨_, rfl, ?_, by simp [inorder_plug, inorder, pre, suf]⟩
      refine bal_plug _ _ ⟨ht, p1, by omega, by omega, by omega⟩ ?_
      simp only [height]
      rw [show max (height t) (height r) = max (height t + 1) (height r) by omega]
      exact p5
    rw [if_neg e1]
    have hm : max (height t + 1) (height r) + 1 = height t + 3 := by omega
    rw [hm] at p5
    obtain ⟨rb, q1, q2, q3⟩ := repairR (id := id) (k := k) (b := b + 1) p1 ht (by omega) (by omega)
    rw [q1, Option.bind_some]
    by_cases e2 : rb = 0
    · rw [if_pos e2]
      obtain ⟨t', w1, w2, w3, _, w5⟩ := q2 (.inr e2)
      rw [w1, Option.map_some]
      refine ⟨_, rfl, bal_plug _ _ w2 ?_, by rw [inorder_plug, w3]; simp [inorder, pre, suf]⟩
      rw [w5 e2]
      exact p5
    rw [if_neg e2]
    by_cases e3 : rb = 1
    · rw [if_pos e3]
      obtain ⟨t', w1, w2, w3, w4, _⟩ := q2 (.inl e3)
      rw [w1, Option.bind_some]
      obtain ⟨t'', s1, s2, s3⟩ := postDelete_ok p t' w2 (by rw [w4 e3]; exact p5)
      exact ⟨t'', s1, s2, by rw [s3, w3]; simp [inorder, pre, suf]⟩
    · rw [if_neg e3]
      obtain ⟨t1, t', w1, w2, w3, w4, w5⟩ := q3 ⟨e3, e2⟩
      rw [w1, Option.bind_some, w2, Option.bind_some]
      obtain ⟨t'', s1, s2, s3⟩ := postDelete_ok p t' w3 (by rw [w5]; exact p5)
      exact ⟨t'', s1, s2, by rw [s3, w4]; simp [inorder, pre, suf]⟩
  | .R l id k b :: p, t, ht, hp => by
    obtain ⟨p1, p2, p3, p4, p5⟩ := hp
    simp only [postDelete]
    by_cases e0 : b - 1 = 0
    · rw [if_pos e0]
      have hp' : BalPath p (height (.node l id k (b - 1) t) + 1) := by
        simp only [height]
        rw [show max (height l) (height t + 1) + 1 = max (height l) (height t) + 1 + 1 by omega] at p5
        exact p5
      obtain ⟨t', q1, q2, q3⟩ := postDelete_ok p (.node l id k (b - 1) t) ⟨p1, ht, by omega, by omega, by omega⟩ hp'
      exact ⟨t', q1, q2, by rw [q3]; simp [inorder, pre, suf]⟩
    rw [if_neg e0]
    by_cases e1 : b - 1 = -1
    · rw [if_pos e1]
      refine ⟨_, rfl, ?_, by simp [inorder_plug, inorder, pre, suf]⟩
      refine bal_plug _ _ ⟨p1, ht, by omega, by omega, by omega⟩ ?_
      simp only [height]
      rw [show max (height l) (height t) = max (height l) (height t + 1) by omega]
      exact p5
    rw [if_neg e1]
    have hm : max (height l) (height t + 1) + 1 = height t + 3 := by omega
    rw [hm] at p5
    obtain ⟨lb, q1, q2, q3⟩ := repairL (id := id) (k := k) (b := b - 1) p1 ht (by omega) (by omega)
    rw [q1, Option.bind_some]
    by_cases e2 : lb = 0
    · rw [if_pos e2]
      obtain ⟨t', w1, w2, w3, _, w5⟩ := q2 (.inr e2)
      rw [w1, Option.map_some]
      refine ⟨_, rfl, bal_plug _ _ w2 ?_, by rw [inorder_plug, w3]; simp [inorder, pre, suf]⟩
      rw [w5 e2]
      exact p5
    rw [if_neg e2]
    by_cases e3 : lb = -1
    · rw [if_pos e3]
      obtain ⟨t', w1, w2, w3, w4, _⟩ := q2 (.inl e3)
      rw [w1, Option.bind_some]
      obtain ⟨t'', s1, s2, s3⟩ := postDelete_ok p t' w2 (by rw [w4 e3]; exact p5)
      exact ⟨t'', s1, s2, by rw [s3, w3]; simp [inorder, pre, suf]⟩
    · rw [if_neg e3]
      obtain ⟨t1, t', w1, w2, w3, w4, w5⟩ := q3 ⟨e3, e2⟩
      rw [w1, Option.bind_some, w2, Option.bind_some]
      obtain ⟨t'', s1, s2, s3⟩ := postDelete_ok p t' w3 (by rw [w5]; exact p5)
      exact ⟨t'', s1, s2, by rw [s3, w4]; simp [inorder, pre, suf]⟩

/-- keys strictly increasing -/
def Sorted (l : List (Nat × Nat)) : Prop := l.Pairwise fun a b => a.2 < b.2

theorem sorted_mid {A B : List (Nat × Nat)} {x : Nat × Nat} (h : Sorted (A ++ x :: B)) :
    (∀ a ∈ A, a.2 < x.2) ∧ (∀ b ∈ B, x.2 < b.2) := by
  unfold Sorted at h
  rw [List.pairwise_append] at h
  refine ⟨fun a ha => h.2.2 a ha x (by simp), fun b hb => ?_⟩
  exact (List.pairwise_cons.1 h.2.1).1 b hb

/-- the search ends at a node next to which the key belongs -/
theorem findRec_ok : ∀ (t : Tree) (key : Nat) (p : List Frame), t ≠ .nil →
    Sorted (pre p ++ inorder t ++ suf p) → (∀ a ∈ pre p, a.2 < key) → (∀ a ∈ suf p, key < a.2) →
    ∃ l i k b r q, findRec t key p = some (.node l i k b r, q) ∧ plug q (.node l i k b r) = plug p t ∧
      (∀ a ∈ pre q, a.2 < key) ∧ (∀ a ∈ suf q, key < a.2) ∧
      (k = key ∨ (key < k ∧ l = .nil) ∨ (k < key ∧ r = .nil))
  | .nil, _, _, h, _, _, _ => absurd rfl h
  | .node l id k b r, key, p, _, hs, h1, h2 => by
    have hs' : Sorted ((pre p ++ inorder l) ++ (id, k) :: (inorder r ++ suf p)) := by
      simpa [inorder] using hs
    obtain ⟨m1, m2⟩ := sorted_mid hs'
    unfold findRec
    by_cases c1 : key < k
    · rw [if_pos c1]
      cases hl : l with
      | nil => exact ⟨.nil, id, k, b, r, p, rfl, rfl, h1, h2, .inr (.inl ⟨c1, rfl⟩)⟩
      | node l1 i1 k1 b1 r1 =>
        simp only
        rw [← hl]
        obtain ⟨l', i', k', b', r', q, e1, e2, e3, e4, e5⟩ := findRec_ok l key (.L id k b r :: p) (by simp [hl])
          (by simpa [pre, suf] using hs') h1 (by
            intro a ha
            simp only [suf, List.cons_append, List.mem_cons, List.mem_append] at ha
            rcases ha with rfl | ha | ha
            · exact c1
            · have := m2 a (by simp [ha]); simp only at this; omega
            · exact h2 a ha)
        exact ⟨l', i', k', b', r', q, by rw [← e1, hl], e2, e3, e4, e5⟩
    · rw [if_neg c1]
      by_cases c2 : key > k
      · rw [if_pos c2]
        cases hr : r with
        | nil => exact ⟨l, id, k, b, .nil, p, rfl, rfl, h1, h2, .inr (.inr ⟨c2, rfl⟩)⟩
        | node l1 i1 k1 b1 r1 =>
          simp only
          rw [← hr]
          obtain ⟨l', i', k', b', r', q, e1, e2, e3, e4, e5⟩ := findRec_ok r key (.R l id k b :: p) (by simp [hr])
            (by simpa [pre, suf] using hs') (by
              intro a ha
              simp only [pre, List.mem_append, List.mem_singleton] at ha
              rcases ha with (ha | ha) | rfl
              · exact h1 a ha
              · have := m1 a (by simp [ha]); simp only at this; omega
              · exact c2) h2
          exact ⟨l', i', k', b', r', q, by rw [← e1, hr], e2, e3, e4, e5⟩
      · rw [if_neg c2]
        exact ⟨l, id, k, b, r, p, rfl, rfl, h1, h2, .inl (by omega)⟩

theorem locate_ok : ∀ (t : Tree) (id : Nat) (p : List Frame), (∃ k, (id, k) ∈ inorder t) →
    ∃ l k b r q, locate t id p = some (.node l id k b r, q) ∧ plug q (.node l id k b r) = plug p t
  | .nil, _, _, ⟨k, h⟩ => by simp [inorder] at h
  | .node l i k b r, id, p, ⟨k', h⟩ => by
    unfold locate
    by_cases e : i = id
    · rw [if_pos e]; subst e
      exact ⟨l, k, b, r, p, rfl, rfl⟩
    · rw [if_neg e]
      cases hl : locate l id (.L i k b r :: p) with
      | some f =>
        by_cases hm : ∃ k, (id, k) ∈ inorder l
        · obtain ⟨l', k', b', r', q, e1, e2⟩ := locate_ok l id (.L i k b r :: p) hm
          rw [hl] at e1
          exact ⟨l', k', b', r', q, by rw [Option.some_or, e1], e2⟩
        · exfalso
          -- nothing is found where there is nothing
          have none_of : ∀ (t : Tree) (p : List Frame), (¬ ∃ k, (id, k) ∈ inorder t) → locate t id p = none := by
            intro t
            induction t with
            | nil => intros; rfl
            | node l i k b r ihl ihr =>
              intro p hn
              unfold locate
              have : i ≠ id := fun e => hn ⟨k, by simp [inorder, e]⟩
              rw [if_neg this, ihl _ (fun ⟨k, h⟩ => hn ⟨k, by simp [inorder, h]⟩),
                ihr _ (fun ⟨k, h⟩ => hn ⟨k, by simp [inorder, h]⟩)]
              rfl
          rw [none_of l _ hm] at hl
          cases hl
      | none =>
        have hm : ∃ k, (id, k) ∈ inorder r := by
          refine Classical.byContradiction fun hn => ?_
          simp only [inorder, List.mem_append, List.mem_cons, Prod.mk.injEq] at h
          rcases h with h | h | h
          · obtain ⟨l', k', b', r', q, e1, e2⟩ := locate_ok l id (.L i k b r :: p) ⟨_, h⟩
            rw [hl] at e1; cases e1
          · exact e h.1.symm
          · exact hn ⟨_, h⟩
        obtain ⟨l', k', b', r', q, e1, e2⟩ := locate_ok r id (.R l i k b :: p) hm
        exact ⟨l', k', b', r', q, by rw [Option.none_or, e1], e2⟩

theorem localMin_ok : ∀ (t : Tree) (p : List Frame), t ≠ .nil →
    ∃ i k b r q, localMin t p = some (i, k, r, q) ∧ plug q (.node .nil i k b r) = plug p t ∧
      pre q = pre p ∧ (i, k) :: inorder r ++ suf q = inorder t ++ suf p
  | .nil, _, h => absurd rfl h
  | .node l id k b r, p, _ => by
    unfold localMin
    cases hl : l with
    | nil => exact ⟨id, k, b, r, p, rfl, rfl, rfl, by simp [inorder]⟩
    | node l1 i1 k1 b1 r1 =>
      simp only
      rw [← hl]
      obtain ⟨i, k', b', r', q, e1, e2, e3, e4⟩ := localMin_ok l (.L id k b r :: p) (by simp [hl])
      refine ⟨i, k', b', r', q, by rw [← e1, hl], e2, by rw [e3]; rfl, ?_⟩
      rw [e4]
      simp [inorder, suf]

theorem replace_height (id nid nk : Nat) : ∀ t : Tree, height (replace t id nid nk) = height t
  | .nil => rfl
  | .node l i k b r => by simp [replace, height, replace_height id nid nk l, replace_height id nid nk r]

theorem replace_bal (id nid nk : Nat) : ∀ t : Tree, Bal t → Bal (replace t id nid nk)
  | .nil, _ => trivial
  | .node l i k b r, h => by
    simp only [replace, Bal, replace_height]
    exact ⟨replace_bal id nid nk l h.1, replace_bal id nid nk r h.2.1, h.2.2⟩

theorem replace_inorder (id nid nk : Nat) : ∀ t : Tree,
    inorder (replace t id nid nk) = (inorder t).map fun e => if e.1 = id then (nid, nk) else e
  | .nil => rfl
  | .node l i k b r => by
    simp only [replace, inorder, List.map_append, List.map_cons, replace_inorder id nid nk l, replace_inorder id nid nk r]
    by_cases e : i = id <;> simp [e]

theorem map_replace_id (id nid nk : Nat) (l : List (Nat × Nat)) (h : ∀ e ∈ l, e.1 ≠ id) :
    (l.map fun e => if e.1 = id then (nid, nk) else e) = l := by
  rw [List.map_congr_left (g := fun e => e), List.map_id']
  intro e he
  rw [if_neg (h e he)]

/-- removing a node from the tree -/
theorem deleteWorker_ok {t : Tree} {id k : Nat} {A B : List (Nat × Nat)} (hb : Bal t)
    (hin : inorder t = A ++ (id, k) :: B) (hA : ∀ e ∈ A, e.1 ≠ id) (hB : ∀ e ∈ B, e.1 ≠ id) :
    ∃ t', deleteWorker t id = some t' ∧ Bal t' ∧ inorder t' = A ++ B := by
  obtain ⟨l, k', b, r, q, e1, e2⟩ := locate_ok t id [] ⟨k, by rw [hin]; simp⟩
  have e2' : plug q (.node l id k' b r) = t := e2
  obtain ⟨b1, b2⟩ := balPath_of_plug q (.node l id k' b r) (by rw [e2']; exact hb)
  have hin2 : pre q ++ inorder l ++ (id, k') :: (inorder r ++ suf q) = A ++ (id, k) :: B := by
    rw [← hin, ← e2', inorder_plug]; simp [inorder]
  -- the occurrence is unique
  have uniq : ∀ (P Q A B : List (Nat × Nat)) (k k' : Nat), P ++ (id, k') :: Q = A ++ (id, k) :: B →
      (∀ e ∈ A, e.1 ≠ id) → (∀ e ∈ B, e.1 ≠ id) → P = A ∧ Q = B := by
    intro P
    induction P with
    | nil =>
      intro Q A B k k' h hA hB
      cases A with
      | nil => simp at h; exact ⟨rfl, h.2⟩
      | cons a A => simp at h; exact absurd (by rw [← h.1]) (hA a (by simp))
    | cons x P ih =>
      intro Q A B k k' h hA hB
      cases A with
      | nil =>
        simp at h
        exact absurd rfl (hB (id, k') (by rw [← h.2]; simp))
      | cons a A =>
        simp at h
        obtain ⟨h1, h2⟩ := ih Q A B k k' h.2 (fun e he => hA e (by simp [he])) hB
        exact ⟨by rw [h.1, h1], h2⟩
  obtain ⟨u1, u2⟩ := uniq _ _ _ _ _ _ hin2 hA hB
  unfold deleteWorker
  rw [e1, Option.bind_some]
  simp only
  obtain ⟨c1, c2, c3, c4, c5⟩ := b1
  cases l with
  | nil =>
    simp only
    simp only [height] at b2 c3
    obtain ⟨t', w1, w2, w3⟩ := postDelete_ok q r c2 (by
      rw [show max 0 (height r) + 1 = height r + 1 by omega] at b2; exact b2)
    refine ⟨t', w1, w2, ?_⟩
    rw [w3, ← u1, ← u2]; simp [inorder]
  | node ll li lk lb lr =>
    cases r with
    | nil =>
      simp only
      simp only [height] at b2 c3
      obtain ⟨t', w1, w2, w3⟩ := postDelete_ok q (.node ll li lk lb lr) c1 (by
        simp only [height]
        rw [show max (max (height ll) (height lr) + 1) 0 + 1 = max (height ll) (height lr) + 1 + 1 by omega] at b2
        exact b2)
      refine ⟨t', w1, w2, ?_⟩
      rw [w3, ← u1, ← u2]; simp [inorder]
    | node rl ri rk rb rr =>
      simp only
      obtain ⟨mi, mk, mb, mr, q', m1, m2, m3, m4⟩ := localMin_ok (.node rl ri rk rb rr)
        (.R (.node ll li lk lb lr) id k' b :: q) (by simp)
      rw [m1, Option.bind_some]
      simp only
      have m2' : plug q' (.node .nil mi mk mb mr) = t := by rw [m2, ← e2']; rfl
      obtain ⟨d1, d2⟩ := balPath_of_plug q' _ (by rw [m2']; exact hb)
      simp only [Bal, height] at d1 d2
      obtain ⟨t', w1, w2, w3⟩ := postDelete_ok q' mr d1.2.1 (by
        rw [show max 0 (height mr) + 1 = height mr + 1 by omega] at d2; exact d2)
      rw [w1, Option.map_some]
      refine ⟨_, rfl, replace_bal _ _ _ _ w2, ?_⟩
      have hB' : (mi, mk) :: (inorder mr ++ suf q') = B := by
        rw [← u2]
        simp only [List.cons_append, suf] at m4 ⊢
        exact m4
      rw [replace_inorder, w3, m3]
      simp only [pre, List.map_append, List.append_assoc]
      simp only [List.map_cons, List.map_nil, if_true]
      have a1 : pre q ++ inorder (.node ll li lk lb lr) = A := u1
      rw [← List.append_assoc, ← List.map_append, a1, map_replace_id _ _ _ A hA, ← List.map_append,
        map_replace_id _ _ _ (inorder mr ++ suf q') (fun e he => hB e (by rw [← hB']; simp at he ⊢; right; exact he)), ← hB']
      rfl

/-- a balanced tree of height `h` has at least `2^(h/2)` places -/
theorem height_bound : ∀ (t : Tree), Bal t → 2 ^ (height t / 2) ≤ (inorder t).length + 1
  | .nil, _ => by simp [height, inorder]
  | .node l i k b r, h => by
    obtain ⟨h1, h2, h3, h4, h5⟩ := h
    have il := height_bound l h1
    have ir := height_bound r h2
    simp only [height, inorder, List.length_append, List.length_cons]
    have key : ∀ m, m ≤ height l → m ≤ height r → 2 ^ ((m + 2) / 2) ≤
        (inorder l).length + ((inorder r).length + 1) + 1 := by
      intro m ml mr
      have a1 : 2 ^ (m / 2) ≤ 2 ^ (height l / 2) := Nat.pow_le_pow_right (by omega) (by omega)
      have a2 : 2 ^ (m / 2) ≤ 2 ^ (height r / 2) := Nat.pow_le_pow_right (by omega) (by omega)
      rw [show (m + 2) / 2 = m / 2 + 1 by omega, Nat.pow_succ]
      omega
    have hm : max (height l) (height r) + 1 ≤ min (height l) (height r) + 2 := by omega
    refine Nat.le_trans (Nat.pow_le_pow_right (by omega) ?_) (key (min (height l) (height r)) (by omega) (by omega))
    omega

end Verif.Avl
