import Verif.AvlLemmas

/-!
# C29: the balanced tree as a sorted map
-/

namespace Verif.Avl

/-- the content of the tree, as identities and keys, in order -/
abbrev Content := List (Nat × Nat)

/-- a new element goes behind all elements with the same or a smaller key -/
def place (A : Content) (id key : Nat) : Content :=
  A.takeWhile (·.2 ≤ key) ++ (id, key) :: A.dropWhile (·.2 ≤ key)

/-- whether an insertion is accepted -/
def accepts (A : Content) (key : Nat) (dup : Bool) : Bool := dup || !A.any (·.2 = key)

def spec (A : Content) : Op → Content
  | .insert id key dup => if accepts A key dup then place A id key else A
  | .delete id => A.filter (·.1 ≠ id)

/-- nodes are inserted only if they are not in the tree, and deleted only if they are -/
def Op.Ok (A : Content) : Op → Prop
  | .insert id _ _ => ∀ a ∈ A, a.1 ≠ id
  | .delete id => ∃ k, (id, k) ∈ A

def AllOk : Content → List Op → Prop
  | _, [] => True
  | A, o :: os => o.Ok A ∧ AllOk (spec A o) os

/-- the chain with its marks: the first element of each key is the leader -/
private def flags : Option Nat → Content → List Elem
  | _, [] => []
  | p, x :: xs => ⟨x.1, x.2, decide (p ≠ some x.2)⟩ :: flags (some x.2) xs

private def leaders : Option Nat → Content → Content
  | _, [] => []
  | p, x :: xs => (if p = some x.2 then [] else [x]) ++ leaders (some x.2) xs

private def lastKey : Option Nat → Content → Option Nat
  | p, [] => p
  | _, x :: xs => lastKey (some x.2) xs

private theorem flags_append : ∀ (p : Option Nat) (A B : Content), flags p (A ++ B) = flags p A ++ flags (lastKey p A) B
  | _, [], _ => rfl
  | p, x :: xs, B => by simp [flags, lastKey, flags_append]

private theorem leaders_append : ∀ (p : Option Nat) (A B : Content),
    leaders p (A ++ B) = leaders p A ++ leaders (lastKey p A) B
  | _, [], _ => rfl
  | p, x :: xs, B => by simp [leaders, lastKey, leaders_append]

private theorem flags_prev {p q : Option Nat} : ∀ (A : Content), (∀ a ∈ A.head?, p ≠ some a.2 ∧ q ≠ some a.2) →
    flags p A = flags q A
  | [], _ => rfl
  | x :: xs, h => by
    have := h x (by simp)
    simp [flags, this.1, this.2]

private theorem leaders_prev {p q : Option Nat} : ∀ (A : Content), (∀ a ∈ A.head?, p ≠ some a.2 ∧ q ≠ some a.2) →
    leaders p A = leaders q A
  | [], _ => rfl
  | x :: xs, h => by
    have := h x (by simp)
    simp [leaders, this.1, this.2]

private theorem flags_ids : ∀ (p : Option Nat) (A : Content), (flags p A).map (fun e => (e.id, e.key)) = A
  | _, [] => rfl
  | p, x :: xs => by simp [flags, flags_ids]

private theorem flags_id_mem {p : Option Nat} {A : Content} {e : Elem} (h : e ∈ flags p A) : ∃ k, (e.id, k) ∈ A := by
  have : (e.id, e.key) ∈ (flags p A).map (fun e => (e.id, e.key)) := List.mem_map.2 ⟨e, h, rfl⟩
  rw [flags_ids] at this
  exact ⟨_, this⟩

private theorem leaders_sub : ∀ (p : Option Nat) (A : Content), ∀ a ∈ leaders p A, a ∈ A
  | _, [], a, h => by simp [leaders] at h
  | p, x :: xs, a, h => by
    simp only [leaders, List.mem_append] at h
    rcases h with h | h
    · split at h
      · simp at h
      · simp at h; simp [h]
    · exact List.mem_cons_of_mem _ (leaders_sub _ xs a h)

/-- keys never decrease -/
private def Asc (A : Content) : Prop := A.Pairwise fun a b => a.2 ≤ b.2

private theorem leaders_sorted : ∀ (A : Content) (p : Option Nat), Asc A → (∀ k, p = some k → ∀ a ∈ A, k ≤ a.2) →
    Sorted (leaders p A) ∧ (∀ k, p = some k → ∀ a ∈ leaders p A, k < a.2)
  | [], _, _, _ => by simp [leaders, Sorted]
  | x :: xs, p, hs, hp => by
    obtain ⟨h1, h2⟩ := List.pairwise_cons.1 hs
    obtain ⟨i1, i2⟩ := leaders_sorted xs (some x.2) h2 (by intro k hk a ha; cases hk; exact h1 a ha)
    by_cases e : p = some x.2
    · simp only [leaders, if_pos e, List.nil_append]
      refine ⟨i1, ?_⟩
      intro k hk a ha
      rw [e] at hk; cases hk
      exact i2 _ rfl a ha
    · simp only [leaders, if_neg e, List.singleton_append]
      refine ⟨List.pairwise_cons.2 ⟨fun a ha => i2 _ rfl a ha, i1⟩, ?_⟩
      intro k hk a ha
      have hkx : k < x.2 := by
        have := hp k hk x (by simp)
        rcases Nat.lt_or_eq_of_le this with h | h
        · exact h
        · exact absurd (by rw [hk, h]) e
      rcases List.mem_cons.1 ha with rfl | ha
      · exact hkx
      · exact Nat.lt_trans hkx (i2 _ rfl a ha)

/-- every key has its leader -/
private theorem leader_of : ∀ (A : Content) (p : Option Nat), ∀ a ∈ A, p = some a.2 ∨ ∃ b ∈ leaders p A, b.2 = a.2
  | [], _, a, h => by simp at h
  | x :: xs, p, a, h => by
    have main : ∀ k, (some x.2 = some k ∨ ∃ b ∈ leaders (some x.2) xs, b.2 = k) →
        p = some k ∨ ∃ b ∈ leaders p (x :: xs), b.2 = k := by
      rintro k (h1 | ⟨b, hb, h2⟩)
      · cases h1
        by_cases e : p = some x.2
        · exact .inl e
        · exact .inr ⟨x, by simp [leaders, e], rfl⟩
      · exact .inr ⟨b, by simp [leaders, hb], h2⟩
    rcases List.mem_cons.1 h with rfl | h
    · exact main _ (.inl rfl)
    · exact main _ (leader_of xs (some x.2) a h)

/-- where a leader is in the content -/
private theorem leaders_split : ∀ (A : Content) (p : Option Nat) (P S : Content) (n : Nat × Nat),
    leaders p A = P ++ n :: S →
    ∃ A1 R, A = A1 ++ n :: R ∧ leaders p A1 = P ∧ leaders (some n.2) R = S ∧ lastKey p A1 ≠ some n.2
  | [], _, P, S, n, h => by cases P <;> simp [leaders] at h
  | x :: xs, p, P, S, n, h => by
    by_cases e : p = some x.2
    · simp only [leaders, if_pos e, List.nil_append] at h
      obtain ⟨A1, R, h1, h2, h3, h4⟩ := leaders_split xs (some x.2) P S n h
      refine ⟨x :: A1, R, by rw [h1]; rfl, ?_, h3, h4⟩
      simp only [leaders, if_pos e, List.nil_append]; exact h2
    · simp only [leaders, if_neg e, List.singleton_append] at h
      cases P with
      | nil =>
        simp only [List.nil_append, List.cons.injEq] at h
        obtain ⟨rfl, h⟩ := h
        exact ⟨[], xs, rfl, rfl, h, e⟩
      | cons y P =>
        simp only [List.cons_append, List.cons.injEq] at h
        obtain ⟨rfl, h⟩ := h
        obtain ⟨A1, R, h1, h2, h3, h4⟩ := leaders_split xs (some x.2) P S n h
        refine ⟨x :: A1, R, by rw [h1]; rfl, ?_, h3, h4⟩
        simp only [leaders, if_neg e, List.singleton_append, h2]

private theorem lastKey_mem : ∀ (A : Content) (p : Option Nat), (lastKey p A = p ∧ A = []) ∨ ∃ a ∈ A, lastKey p A = some a.2
  | [], _ => .inl ⟨rfl, rfl⟩
  | x :: xs, p => by
    right
    rcases lastKey_mem xs (some x.2) with ⟨h, _⟩ | ⟨a, ha, h⟩
    · exact ⟨x, by simp, h⟩
    · exact ⟨a, by simp [ha], h⟩

private theorem lastKey_max : ∀ (A : Content) (p : Option Nat), Asc A → A ≠ [] → ∃ k, lastKey p A = some k ∧ ∀ a ∈ A, a.2 ≤ k
  | [], _, _, h => absurd rfl h
  | x :: xs, p, hs, _ => by
    obtain ⟨h1, h2⟩ := List.pairwise_cons.1 hs
    by_cases e : xs = []
    · subst e; exact ⟨x.2, rfl, by simp⟩
    · obtain ⟨k, e1, e2⟩ := lastKey_max xs (some x.2) h2 e
      refine ⟨k, e1, ?_⟩
      intro a ha
      rcases List.mem_cons.1 ha with rfl | ha
      · rcases lastKey_mem xs (some a.2) with ⟨_, h⟩ | ⟨b, hb, h⟩
        · exact absurd h e
        · rw [e1] at h; cases h; exact h1 b hb
      · exact e2 a ha

private theorem asc_mid {A B : Content} {x : Nat × Nat} (h : Asc (A ++ x :: B)) :
    Asc A ∧ Asc B ∧ (∀ a ∈ A, a.2 ≤ x.2) ∧ (∀ b ∈ B, x.2 ≤ b.2) ∧ (∀ a ∈ A, ∀ b ∈ B, a.2 ≤ b.2) := by
  unfold Asc at *
  rw [List.pairwise_append] at h
  obtain ⟨h1, h2, h3⟩ := h
  obtain ⟨h4, h5⟩ := List.pairwise_cons.1 h2
  exact ⟨h1, h5, fun a ha => h3 a ha x (by simp), h4, fun a ha b hb => h3 a ha b (by simp [hb])⟩

/-- before a leader all keys are smaller -/
private theorem before_leader {A R : Content} {n : Nat × Nat} (h : Asc (A ++ n :: R)) (hl : lastKey none A ≠ some n.2) :
    ∀ a ∈ A, a.2 < n.2 := by
  obtain ⟨h1, h2, h3, h4, _⟩ := asc_mid h
  intro a ha
  obtain ⟨k, e1, e2⟩ := lastKey_max A none h1 (by intro e; simp [e] at ha)
  rcases lastKey_mem A none with ⟨_, e⟩ | ⟨b, hb, e⟩
  · simp [e] at ha
  · rw [e1] at e; cases e
    have := h3 b hb
    have := e2 a ha
    have : b.2 ≠ n.2 := fun e => hl (by rw [e1, e])
    omega

/-- the elements behind a leader: those with the same key, and the rest -/
private theorem after_leader {R : Content} {k : Nat} (h : Asc R) (hk : ∀ b ∈ R, k ≤ b.2) :
    ∃ D T, R = D ++ T ∧ (∀ d ∈ D, d.2 = k) ∧ (∀ t ∈ T, k < t.2) := by
  induction R with
  | nil => exact ⟨[], [], rfl, by simp, by simp⟩
  | cons x xs ih =>
    obtain ⟨h1, h2⟩ := List.pairwise_cons.1 h
    by_cases e : x.2 = k
    · obtain ⟨D, T, e1, e2, e3⟩ := ih h2 (fun b hb => hk b (by simp [hb]))
      refine ⟨x :: D, T, by rw [e1]; rfl, ?_, e3⟩
      intro d hd
      rcases List.mem_cons.1 hd with rfl | hd
      · exact e
      · exact e2 d hd
    · refine ⟨[], x :: xs, rfl, by simp, ?_⟩
      have hx := hk x (by simp)
      intro t ht
      rcases List.mem_cons.1 ht with rfl | ht
      · omega
      · have := h1 t ht; omega

private theorem flags_same : ∀ (D : Content) (k : Nat), (∀ d ∈ D, d.2 = k) →
    (∀ e ∈ flags (some k) D, e.leader = false) ∧ leaders (some k) D = [] ∧ lastKey (some k) D = some k
  | [], k, _ => by simp [flags, leaders, lastKey]
  | x :: xs, k, h => by
    have hx := h x (by simp)
    obtain ⟨h1, h2, h3⟩ := flags_same xs k (fun d hd => h d (by simp [hd]))
    simp only [flags, leaders, lastKey, hx, ne_eq, not_true_eq_false, decide_false, if_true, List.nil_append, h2, h3]
    refine ⟨?_, trivial, trivial⟩
    intro e he
    rcases List.mem_cons.1 he with rfl | he
    · rfl
    · exact h1 e he

private theorem place_split {X Y : Content} {id key : Nat} (hx : ∀ a ∈ X, a.2 ≤ key) (hy : ∀ a ∈ Y, key < a.2) :
    place (X ++ Y) id key = X ++ (id, key) :: Y := by
  have h1 : (X ++ Y).takeWhile (fun a => decide (a.2 ≤ key)) = X := by
    rw [List.takeWhile_append_of_pos (by simpa using hx)]
    cases Y with
    | nil => simp
    | cons y Y =>
      have := hy y (by simp)
      rw [List.takeWhile_cons_of_neg (by simp; omega)]; simp
  have h2 : (X ++ Y).dropWhile (fun a => decide (a.2 ≤ key)) = Y := by
    rw [List.dropWhile_append_of_pos (by simpa using hx)]
    cases Y with
    | nil => rfl
    | cons y Y =>
      have := hy y (by simp)
      rw [List.dropWhile_cons_of_neg (by simp; omega)]
  unfold place
  rw [h1, h2]

private theorem insertBefore_at {X Y : List Elem} {x e : Elem} (h : ∀ y ∈ X, y.id ≠ x.id) :
    insertBefore (X ++ x :: Y) x.id e = X ++ e :: x :: Y := by
  induction X with
  | nil => simp [insertBefore]
  | cons y X ih =>
    have := h y (by simp)
    simp only [List.cons_append, insertBefore, if_neg this, ih fun z hz => h z (by simp [hz])]

private theorem insertAfter_at {X D T : List Elem} {x e : Elem} (h : ∀ y ∈ X, y.id ≠ x.id)
    (hd : ∀ d ∈ D, d.leader = false) (ht : ∀ t ∈ T.head?, t.leader = true) :
    insertAfter (X ++ x :: (D ++ T)) x.id e = X ++ x :: (D ++ e :: T) := by
  induction X with
  | nil =>
    simp only [List.nil_append, insertAfter, if_true]
    have h1 : (D ++ T).takeWhile (fun y => !y.leader) = D := by
      rw [List.takeWhile_append_of_pos (by intro a ha; simp [hd a ha])]
      cases T with
      | nil => simp
      | cons t T => rw [List.takeWhile_cons_of_neg (by simp [ht t (by simp)])]; simp
    have h2 : (D ++ T).dropWhile (fun y => !y.leader) = T := by
      rw [List.dropWhile_append_of_pos (by intro a ha; simp [hd a ha])]
      cases T with
      | nil => rfl
      | cons t T => rw [List.dropWhile_cons_of_neg (by simp [ht t (by simp)])]
    rw [h1, h2]
  | cons y X ih =>
    have := h y (by simp)
    simp only [List.cons_append, insertAfter, if_neg this, ih fun z hz => h z (by simp [hz])]

private structure Inv (s : State) (A : Content) : Prop where
  asc : Asc A
  nodup : (A.map (·.1)).Nodup
  list : s.list = flags none A
  tree : inorder s.root = leaders none A
  bal : Bal s.root
  count : s.count = A.length

private theorem nodup_mid {X Y : Content} {n : Nat × Nat} (h : ((X ++ n :: Y).map (·.1)).Nodup) :
    (∀ a ∈ X, a.1 ≠ n.1) ∧ (∀ a ∈ Y, a.1 ≠ n.1) ∧ ((X ++ Y).map (·.1)).Nodup := by
  have hp : ((X ++ n :: Y).map (·.1)).Perm (n.1 :: (X ++ Y).map (·.1)) := by
    simp
  rw [hp.nodup_iff, List.nodup_cons] at h
  refine ⟨fun a ha e => h.1 ?_, fun a ha e => h.1 ?_, h.2⟩
  · rw [← e]; exact List.mem_map.2 ⟨a, by simp [ha], rfl⟩
  · rw [← e]; exact List.mem_map.2 ⟨a, by simp [ha], rfl⟩

private theorem nodup_insert {X Y : Content} {n : Nat × Nat} (h : ((X ++ Y).map (·.1)).Nodup)
    (hn : ∀ a ∈ X ++ Y, a.1 ≠ n.1) : ((X ++ n :: Y).map (·.1)).Nodup := by
  have hp : ((X ++ n :: Y).map (·.1)).Perm (n.1 :: (X ++ Y).map (·.1)) := by
    simp
  rw [hp.nodup_iff, List.nodup_cons]
  refine ⟨fun hm => ?_, h⟩
  obtain ⟨a, ha, e⟩ := List.mem_map.1 hm
  exact hn a ha e

private theorem asc_insert {X Y : Content} {n : Nat × Nat} (h : Asc (X ++ Y)) (hx : ∀ a ∈ X, a.2 ≤ n.2)
    (hy : ∀ a ∈ Y, n.2 ≤ a.2) : Asc (X ++ n :: Y) := by
  unfold Asc at *
  rw [List.pairwise_append] at h ⊢
  refine ⟨h.1, List.pairwise_cons.2 ⟨hy, h.2.1⟩, ?_⟩
  intro a ha b hb
  rcases List.mem_cons.1 hb with rfl | hb
  · exact hx a ha
  · exact h.2.2 a ha b hb

/-- what the search finds, in terms of the content -/
private theorem search {s : State} {A : Content} (h : Inv s A) (key : Nat) (hne : s.root ≠ .nil) :
    ∃ l i k b r q X D T, findRec s.root key [] = some (.node l i k b r, q) ∧ plug q (.node l i k b r) = s.root ∧
      A = X ++ (i, k) :: (D ++ T) ∧ (∀ a ∈ X, a.2 < k) ∧ (∀ d ∈ D, d.2 = k) ∧ (∀ t ∈ T, k < t.2) ∧
      leaders none X = pre q ++ inorder l ∧ leaders (some k) T = inorder r ++ suf q ∧ lastKey none X ≠ some k ∧
      (k = key ∨ (key < k ∧ l = .nil ∧ ∀ a ∈ X, a.2 < key) ∨ (k < key ∧ r = .nil ∧ ∀ t ∈ T, key < t.2)) := by
  have hs := (leaders_sorted A none h.asc (by simp)).1
  obtain ⟨l, i, k, b, r, q, e1, e2, e3, e4, e5⟩ := findRec_ok s.root key [] hne
    (by simpa [pre, suf, h.tree] using hs) (by simp [pre]) (by simp [suf])
  have e2' : plug q (.node l i k b r) = s.root := e2
  have hin : leaders none A = (pre q ++ inorder l) ++ (i, k) :: (inorder r ++ suf q) := by
    rw [← h.tree, ← e2', inorder_plug]; simp [inorder]
  obtain ⟨X, R, r1, r2, r3, r4⟩ := leaders_split A none _ _ _ hin
  have hasc := h.asc
  rw [r1] at hasc
  obtain ⟨a1, a2, a3, a4, a5⟩ := asc_mid hasc
  obtain ⟨D, T, d1, d2, d3⟩ := after_leader a2 a4
  subst d1
  have hX := before_leader hasc r4
  have hT : leaders (some k) T = inorder r ++ suf q := by
    rw [← r3, leaders_append]
    obtain ⟨_, f2, f3⟩ := flags_same D k d2
    simp only [f2, f3, List.nil_append]
  refine ⟨l, i, k, b, r, q, X, D, T, e1, e2', r1, hX, d2, d3, r2, hT, r4, ?_⟩
  rcases e5 with e5 | ⟨e5, rfl⟩ | ⟨e5, rfl⟩
  · exact .inl e5
  · refine .inr (.inl ⟨e5, rfl, ?_⟩)
    intro a ha
    rcases leader_of X none a ha with h1 | ⟨c, hc, h1⟩
    · cases h1
    · rw [r2] at hc
      simp only [inorder, List.append_nil] at hc
      rw [← h1]; exact e3 c hc
  · refine .inr (.inr ⟨e5, rfl, ?_⟩)
    intro a ha
    rcases leader_of T (some k) a ha with h1 | ⟨c, hc, h1⟩
    · cases h1; have := d3 a ha; omega
    · rw [hT] at hc
      simp only [inorder, List.nil_append] at hc
      rw [← h1]; exact e4 c hc

private theorem ne_of_lastKey {X : Content} {k : Nat} (h : ∀ a ∈ X, a.2 < k) : lastKey none X ≠ some k := by
  rcases lastKey_mem X none with ⟨e, _⟩ | ⟨a, ha, e⟩
  · rw [e]; simp
  · rw [e]; have := h a ha; intro h; cases h; omega

private theorem flags_ids_ne {X : Content} {p : Option Nat} {id : Nat} (h : ∀ a ∈ X, a.1 ≠ id) :
    ∀ e ∈ flags p X, e.id ≠ id := by
  intro e he
  obtain ⟨k, hk⟩ := flags_id_mem he
  exact h _ hk

private theorem head_mem {α : Type} {l : List α} {a : α} (h : a ∈ l.head?) : a ∈ l := by
  cases l with
  | nil => simp at h
  | cons x xs => simp at h; simp [h]

private theorem flags_head {T : Content} {k : Nat} (h : ∀ t ∈ T, k < t.2) :
    ∀ t ∈ (flags (some k) T).head?, t.leader = true := by
  cases T with
  | nil => simp [flags]
  | cons x T =>
    have := h x (by simp)
    simp [flags]; omega

private theorem insert_ok {s : State} {A : Content} (h : Inv s A) (id key : Nat) (dup : Bool) (hid : ∀ a ∈ A, a.1 ≠ id) :
    ∃ s', insert s id key dup = some (s', accepts A key dup) ∧ Inv s' (spec A (.insert id key dup)) := by
  by_cases hne : s.root = .nil
  · have hA : A = [] := by
      cases A with
      | nil => rfl
      | cons x xs =>
        have := h.tree
        rw [hne] at this
        simp [inorder, leaders] at this
    subst hA
    unfold insert
    rw [hne]
    refine ⟨⟨.node .nil id key 0 .nil, [⟨id, key, true⟩], 1⟩, by simp [accepts], ?_⟩
    simp only [spec, accepts, List.any_nil, Bool.not_false, Bool.or_true, if_true, place, List.takeWhile_nil,
      List.dropWhile_nil, List.nil_append]
    refine ⟨by simp [Asc], by simp, by simp [flags], by simp [inorder, leaders], by simp [Bal, height], rfl⟩
  · obtain ⟨l, i, k, b, r, q, X, D, T, e1, e2, hA, hX, hD, hT, hl, hr, hk, hc⟩ := search h key hne
    have hasc := h.asc
    have hnd := h.nodup
    have hlist := h.list
    have hbal := h.bal
    rw [← e2] at hbal
    obtain ⟨hb1, hb2⟩ := balPath_of_plug _ _ hbal
    obtain ⟨c1, c2, c3, c4, c5⟩ := hb1
    rw [hA] at hasc hnd hlist
    obtain ⟨n1, n2, n3⟩ := nodup_mid hnd
    obtain ⟨f1, f2, f3⟩ := flags_same D k hD
    have hlist' : s.list = flags none X ++ ⟨i, k, true⟩ :: (flags (some k) D ++ flags (some k) T) := by
      rw [hlist, flags_append]
      simp only [flags, flags_append, f3, List.append_cancel_left_eq, List.cons.injEq, and_true]
      simp [hk]
    have hins : ∀ e : Elem, insertAfter s.list i e = flags none X ++ ⟨i, k, true⟩ :: (flags (some k) D ++ e :: flags (some k) T) := by
      intro e
      rw [hlist']
      exact insertAfter_at (x := ⟨i, k, true⟩) (flags_ids_ne n1) f1 (flags_head hT)
    have hbef : ∀ e : Elem, insertBefore s.list i e = flags none X ++ e :: ⟨i, k, true⟩ :: (flags (some k) D ++ flags (some k) T) := by
      intro e
      rw [hlist']
      exact insertBefore_at (x := ⟨i, k, true⟩) (flags_ids_ne n1)
    have hunf : insert s id key dup =
        if key = k then
          if dup then some ({ s with list := insertAfter s.list i ⟨id, key, false⟩, count := s.count + 1 }, true)
          else some (s, false)
        else if b = 1 then
          some (⟨plug q (.node (.node .nil id key 0 .nil) i k 0 r), insertBefore s.list i ⟨id, key, true⟩,
            s.count + 1⟩, true)
        else if b = -1 then
          some (⟨plug q (.node l i k 0 (.node .nil id key 0 .nil)), insertAfter s.list i ⟨id, key, true⟩,
            s.count + 1⟩, true)
        else if key < k then
          (postInsert (.node (.node .nil id key 0 .nil) i k (-1) r) q).map fun t =>
            (⟨t, insertBefore s.list i ⟨id, key, true⟩, s.count + 1⟩, true)
        else
          (postInsert (.node l i k 1 (.node .nil id key 0 .nil)) q).map fun t =>
            (⟨t, insertAfter s.list i ⟨id, key, true⟩, s.count + 1⟩, true) := by
      unfold insert
      split
      · rename_i hr'; exact absurd hr' hne
      · rw [e1, Option.bind_some]
    rw [hunf]
    by_cases ck : key = k
    · rw [if_pos ck]
      subst ck
      have hany : A.any (fun a => decide (a.2 = key)) = true := by
        rw [hA]; simp
      cases dup with
      | false =>
        rw [if_neg (by simp)]
        refine ⟨s, ?_, ?_⟩
        · simp only [accepts, hany, Bool.not_true, Bool.or_false]
        · simp only [spec, accepts, hany, Bool.not_true, Bool.or_false, Bool.false_eq_true, if_false]; exact h
      | true =>
        rw [if_pos rfl]
        refine ⟨_, rfl, ?_⟩
        simp only [spec, accepts, Bool.true_or, if_true]
        have hpl : place A id key = X ++ (i, key) :: D ++ (id, key) :: T := by
          rw [hA, show X ++ (i, key) :: (D ++ T) = (X ++ (i, key) :: D) ++ T by simp]
          refine place_split ?_ hT
          intro a ha
          simp only [List.mem_append, List.mem_cons] at ha
          rcases ha with ha | rfl | ha
          · have := hX a ha; omega
          · exact Nat.le_refl _
          · have := hD a ha; omega
        rw [hpl]
        refine ⟨?_, ?_, ?_, ?_, h.bal, ?_⟩
        · refine asc_insert (by simpa using hasc) ?_ (fun a ha => by have := hT a ha; simp only; omega)
          intro a ha
          simp only [List.mem_append, List.mem_cons] at ha
          rcases ha with ha | rfl | ha
          · have := hX a ha; simp only; omega
          · exact Nat.le_refl _
          · have := hD a ha; simp only; omega
        · refine nodup_insert (by simpa using hnd) ?_
          intro a ha
          exact hid a (by rw [hA]; simpa using ha)
        · show insertAfter s.list i ⟨id, key, false⟩ = _
          rw [hins, List.append_assoc, flags_append]
          simp only [List.cons_append, flags, flags_append, f3, List.append_cancel_left_eq, List.cons.injEq]
          simp [hk]
        · show inorder s.root = _
          rw [h.tree, hA]
          simp only [leaders_append, leaders, List.append_assoc, List.cons_append, f3, f2, if_true, List.nil_append]
        · show s.count + 1 = _
          rw [h.count, hA]; simp; omega
    · rw [if_neg ck]
      have hacc : accepts A key dup = true := by
        have : A.any (fun a => decide (a.2 = key)) = false := by
          rw [List.any_eq_false]
          intro a ha
          rw [hA] at ha
          simp only [List.mem_append, List.mem_cons] at ha
          simp only [decide_eq_true_eq]
          rcases hc with hc | ⟨c1, _, c2⟩ | ⟨c1, _, c2⟩
          · exact absurd hc.symm ck
          · rcases ha with ha | rfl | ha | ha
            · have := c2 a ha; omega
            · simp only; omega
            · have := hD a ha; omega
            · have := hT a ha; omega
          · rcases ha with ha | rfl | ha | ha
            · have := hX a ha; omega
            · simp only; omega
            · have := hD a ha; omega
            · have := c2 a ha; omega
        simp [accepts, this]
      simp only [spec, hacc, if_true]
      rcases hc with hc | ⟨c6, rfl, c7⟩ | ⟨c6, rfl, c7⟩
      · exact absurd hc.symm ck
      · -- left of the node
        have hpl : place A id key = X ++ (id, key) :: (i, k) :: (D ++ T) := by
          rw [hA]
          refine place_split (fun a ha => by have := c7 a ha; omega) ?_
          intro a ha
          simp only [List.mem_cons, List.mem_append] at ha
          rcases ha with rfl | ha | ha
          · exact c6
          · have := hD a ha; omega
          · have := hT a ha; omega
        have common : ∀ t : Tree, Bal t → inorder t = pre q ++ (id, key) :: (i, k) :: inorder r ++ suf q →
            Inv ⟨t, insertBefore s.list i ⟨id, key, true⟩, s.count + 1⟩ (place A id key) := by
          intro t ht hin
          rw [hpl]
          refine ⟨?_, ?_, ?_, ?_, ht, ?_⟩
          · refine asc_insert hasc (fun a ha => by have := c7 a ha; simp only; omega) ?_
            intro a ha
            simp only [List.mem_cons, List.mem_append] at ha
            rcases ha with rfl | ha | ha
            · simp only; omega
            · have := hD a ha; simp only; omega
            · have := hT a ha; simp only; omega
          · exact nodup_insert hnd (fun a ha => hid a (by rw [hA]; exact ha))
          · show insertBefore s.list i ⟨id, key, true⟩ = _
            rw [hbef, flags_append]
            simp only [flags, flags_append, f3, List.append_cancel_left_eq, List.cons.injEq]
            have := ne_of_lastKey c7
            simp [this, ck]
          · show inorder t = _
            rw [hin, leaders_append, hl]
            have := ne_of_lastKey c7
            simp only [leaders, leaders_append, f2, f3, hr, this, if_false, inorder, List.append_nil]
            simp [ck]
          · show s.count + 1 = _
            rw [h.count, hA]; simp; omega
        simp only [height] at hb2 c3
        by_cases cb : b = 1
        · rw [if_pos cb]
          refine ⟨_, rfl, common _ ?_ ?_⟩
          · refine bal_plug _ _ ?_ ?_
            · simp only [Bal, height]; refine ⟨⟨trivial, trivial, ?_⟩, c2, ?_⟩ <;> omega
            · simp only [height]
              rw [show max (max 0 0 + 1) (height r) = max 0 (height r) by omega]; exact hb2
          · rw [inorder_plug]; simp [inorder]
        · rw [if_neg cb, if_neg (by omega), if_pos c6]
          obtain ⟨t', w1, w2, w3⟩ := postInsert_ok q (.node (.node .nil id key 0 .nil) i k (-1) r) 1
            (by simp only [Bal, height]; refine ⟨⟨trivial, trivial, ?_⟩, c2, ?_⟩ <;> omega) (by simp only [height]; omega)
            ⟨_, rfl, by omega⟩ (by rw [show max 0 (height r) + 1 = 1 by omega] at hb2; exact hb2)
          rw [w1, Option.map_some]
          exact ⟨_, rfl, common _ w2 (by rw [w3]; simp [inorder])⟩
      · -- right of the node
        have hpl : place A id key = X ++ (i, k) :: D ++ (id, key) :: T := by
          rw [hA, show X ++ (i, k) :: (D ++ T) = (X ++ (i, k) :: D) ++ T by simp]
          refine place_split ?_ c7
          intro a ha
          simp only [List.mem_append, List.mem_cons] at ha
          rcases ha with ha | rfl | ha
          · have := hX a ha; omega
          · simp only; omega
          · have := hD a ha; omega
        have common : ∀ t : Tree, Bal t → inorder t = pre q ++ inorder l ++ (i, k) :: (id, key) :: suf q →
            Inv ⟨t, insertAfter s.list i ⟨id, key, true⟩, s.count + 1⟩ (place A id key) := by
          intro t ht hin
          rw [hpl]
          have hTh : ∀ a ∈ T.head?, some k ≠ some a.2 ∧ some key ≠ some a.2 := by
            intro a ha
            have h1 := hT a (head_mem ha)
            have h2 := c7 a (head_mem ha)
            constructor <;> · intro e; cases e; omega
          refine ⟨?_, ?_, ?_, ?_, ht, ?_⟩
          · refine asc_insert (by simpa using hasc) ?_ (fun a ha => by have := c7 a ha; simp only; omega)
            intro a ha
            simp only [List.mem_append, List.mem_cons] at ha
            rcases ha with ha | rfl | ha
            · have := hX a ha; simp only; omega
            · simp only; omega
            · have := hD a ha; simp only; omega
          · refine nodup_insert (by simpa using hnd) ?_
            intro a ha
            exact hid a (by rw [hA]; simpa using ha)
          · show insertAfter s.list i ⟨id, key, true⟩ = _
            rw [hins, List.append_assoc, flags_append]
            simp only [List.cons_append, flags, flags_append, f3, List.append_cancel_left_eq, List.cons.injEq]
            rw [flags_prev T hTh]
            have : k ≠ key := by omega
            simp [hk, this]
          · show inorder t = _
            rw [hin, show X ++ (i, k) :: D ++ (id, key) :: T = X ++ ((i, k) :: D ++ (id, key) :: T) by simp,
              leaders_append none X, hl]
            simp only [List.cons_append, leaders, leaders_append, f2, f3, hk, if_false]
            rw [← leaders_prev T hTh, hr]
            have : k ≠ key := by omega
            simp [inorder, this]
          · show s.count + 1 = _
            rw [h.count, hA]; simp; omega
        simp only [height] at hb2 c3
        rw [if_neg (show ¬ b = 1 by omega)]
        by_cases cb : b = -1
        · rw [if_pos cb]
          refine ⟨_, rfl, common _ ?_ ?_⟩
          · refine bal_plug _ _ ?_ ?_
            · simp only [Bal, height]; refine ⟨c1, ⟨trivial, trivial, ?_⟩, ?_⟩ <;> omega
            · simp only [height]
              rw [show max (height l) (max 0 0 + 1) = max (height l) 0 by omega]; exact hb2
          · rw [inorder_plug]; simp [inorder]
        · rw [if_neg cb, if_neg (by omega)]
          obtain ⟨t', w1, w2, w3⟩ := postInsert_ok q (.node l i k 1 (.node .nil id key 0 .nil)) 1
            (by simp only [Bal, height]; refine ⟨c1, ⟨trivial, trivial, ?_⟩, ?_⟩ <;> omega) (by simp only [height]; omega)
            ⟨_, rfl, by omega⟩ (by rw [show max (height l) 0 + 1 = 1 by omega] at hb2; exact hb2)
          rw [w1, Option.map_some]
          exact ⟨_, rfl, common _ w2 (by rw [w3]; simp [inorder])⟩

private theorem unlink_at {X Y : List Elem} {x : Elem} (h : ∀ y ∈ X, y.id ≠ x.id) : unlink (X ++ x :: Y) x.id = X ++ Y := by
  unfold unlink
  rw [List.eraseP_append_right _ (by simpa using h)]
  simp

private theorem findElem_at {X Y : List Elem} {x : Elem} (h : ∀ y ∈ X, y.id ≠ x.id) :
    findElem (X ++ x :: Y) x.id = some (x, Y.head?) := by
  induction X with
  | nil => simp [findElem]
  | cons y X ih =>
    have := h y (by simp)
    simp only [List.cons_append, findElem, if_neg this, ih fun z hz => h z (by simp [hz])]

private theorem setLeader_id {l : List Elem} {id : Nat} (h : ∀ e ∈ l, e.id ≠ id) : setLeader l id = l := by
  unfold setLeader
  rw [List.map_congr_left (g := fun e => e), List.map_id']
  intro e he
  rw [if_neg (h e he)]

private theorem delete_ok {s : State} {A : Content} (h : Inv s A) (id : Nat) (hid : ∃ k, (id, k) ∈ A) :
    ∃ s', delete s id = some s' ∧ Inv s' (spec A (.delete id)) := by
  obtain ⟨k, hm⟩ := hid
  obtain ⟨X, Y, rfl⟩ := List.append_of_mem hm
  obtain ⟨n1, n2, n3⟩ := nodup_mid h.nodup
  have hasc := h.asc
  obtain ⟨a1, a2, a3, a4, a5⟩ := asc_mid hasc
  have hspec : spec (X ++ (id, k) :: Y) (.delete id) = X ++ Y := by
    simp only [spec, List.filter_append]
    rw [List.filter_cons_of_neg (by simp), List.filter_eq_self.2, List.filter_eq_self.2]
    · intro a ha; simpa using n2 a ha
    · intro a ha; simpa using n1 a ha
  rw [hspec]
  have hasc' : Asc (X ++ Y) := by
    unfold Asc at *
    rw [List.pairwise_append]
    exact ⟨a1, a2, a5⟩
  have hlist : s.list = flags none X ++ ⟨id, k, decide (lastKey none X ≠ some k)⟩ :: flags (some k) Y := by
    rw [h.list, flags_append]; rfl
  have htree := h.tree
  rw [leaders_append] at htree
  simp only [leaders] at htree
  have hcount : s.count - 1 = (X ++ Y).length := by
    rw [h.count]; simp
  have hunl : unlink s.list id = flags none X ++ flags (some k) Y := by
    rw [hlist]
    exact unlink_at (x := ⟨id, k, decide (lastKey none X ≠ some k)⟩) (flags_ids_ne n1)
  unfold delete
  rw [hlist, findElem_at (x := ⟨id, k, decide (lastKey none X ≠ some k)⟩) (flags_ids_ne n1), Option.bind_some, ← hlist]
  by_cases hk : lastKey none X = some k
  · -- not the first of its key
    simp only [hk, ne_eq, not_true_eq_false, decide_false, Bool.false_eq_true, if_false]
    refine ⟨_, rfl, hasc', n3, ?_, ?_, h.bal, hcount⟩
    · show unlink s.list id = _
      rw [hunl, flags_append, hk]
    · show inorder s.root = _
      rw [htree, leaders_append, hk]; simp
  · simp only [ne_eq, hk, not_false_eq_true, decide_true, if_true]
    have hX := before_leader hasc hk
    rw [if_neg hk] at htree
    simp only [List.singleton_append] at htree
    -- deleting the tree node itself
    have whole : (∀ y ∈ Y, k < y.2) → ∃ s', (deleteWorker s.root id).map (fun t => (⟨t, unlink s.list id, s.count - 1⟩ : State)) =
        some s' ∧ Inv s' (X ++ Y) := by
      intro hY
      have hTh : ∀ a ∈ Y.head?, some k ≠ some a.2 ∧ lastKey none X ≠ some a.2 := by
        intro a ha
        have h1 := hY a (head_mem ha)
        refine ⟨by intro e; cases e; omega, ?_⟩
        refine ne_of_lastKey fun x hx => ?_
        have := hX x hx
        simp only at this; omega
      obtain ⟨t', w1, w2, w3⟩ := deleteWorker_ok h.bal htree
        (fun e he => n1 e (leaders_sub _ _ e he)) (fun e he => n2 e (leaders_sub _ _ e he))
      rw [w1, Option.map_some]
      refine ⟨_, rfl, hasc', n3, ?_, ?_, w2, hcount⟩
      · show unlink s.list id = _
        rw [hunl, flags_append, flags_prev Y hTh]
      · show inorder t' = _
        rw [w3, leaders_append, leaders_prev Y hTh]
    cases Y with
    | nil => exact whole (by simp)
    | cons y Y =>
      simp only [flags, List.head?_cons]
      by_cases hy : y.2 = k
      · -- the next one takes over
        have hdec : decide (some k ≠ some y.2) = false := by simp [hy]
        simp only [hdec, Bool.false_eq_true, if_false]
        obtain ⟨m1, m2, m3⟩ := nodup_mid (X := X) (Y := Y) (n := y) n3
        have hyid : y.1 ≠ id := n2 y (by simp)
        refine ⟨_, rfl, hasc', n3, ?_, ?_, replace_bal _ _ _ _ h.bal, hcount⟩
        · show unlink (setLeader s.list y.1) id = _
          have : setLeader s.list y.1 = flags none X ++ ⟨id, k, true⟩ :: ⟨y.1, y.2, true⟩ :: flags (some y.2) Y := by
            have e1 := setLeader_id (flags_ids_ne (p := none) m1)
            have e2 := setLeader_id (flags_ids_ne (p := some y.2) m2)
            unfold setLeader at e1 e2 ⊢
            rw [hlist]
            simp only [flags, List.map_append, List.map_cons, e1, e2, hk, if_neg (Ne.symm hyid), if_true, ne_eq,
              not_false_eq_true, decide_true]
          rw [this]
          rw [show unlink (flags none X ++ ⟨id, k, true⟩ :: ⟨y.1, y.2, true⟩ :: flags (some y.2) Y) id =
            flags none X ++ ⟨y.1, y.2, true⟩ :: flags (some y.2) Y from
            unlink_at (x := ⟨id, k, true⟩) (flags_ids_ne n1), flags_append]
          have : lastKey none X ≠ some y.2 := by rw [hy]; exact hk
          simp [flags, this]
        · show inorder (replace s.root id y.1 y.2) = _
          rw [replace_inorder, htree, leaders_append]
          simp only [List.map_append, List.map_cons, if_true]
          rw [map_replace_id _ _ _ _ (fun e he => n1 e (leaders_sub _ _ e he)),
            map_replace_id _ _ _ _ (fun e he => n2 e (leaders_sub _ _ e he))]
          have he : (y.1, y.2) = y := rfl
          simp only [leaders, hy, hk, if_true, if_false, List.nil_append, List.singleton_append]
          rw [← hy, he]
      · have hdec : decide (some k ≠ some y.2) = true := by
          simp only [ne_eq, Option.some.injEq, decide_not, Bool.not_eq_eq_eq_not, Bool.not_true, decide_eq_false_iff_not]
          exact fun e => hy e.symm
        simp only [hdec, if_true]
        refine whole ?_
        intro z hz
        have h1 := a4 y (by simp)
        simp only at h1
        rcases List.mem_cons.1 hz with rfl | hz
        · omega
        · have := (List.pairwise_cons.1 a2).1 z hz
          omega

private theorem find_ok {s : State} {A : Content} (h : Inv s A) (key : Nat) :
    find s key = (A.find? (·.2 = key)).map (·.1) := by
  by_cases hne : s.root = .nil
  · have hA : A = [] := by
      cases A with
      | nil => rfl
      | cons x xs =>
        have := h.tree
        rw [hne] at this
        simp [inorder, leaders] at this
    unfold find
    rw [hne, hA]
    rfl
  · obtain ⟨l, i, k, b, r, q, X, D, T, e1, e2, hA, hX, hD, hT, hl, hr, hk, hc⟩ := search h key hne
    unfold find
    rw [e1]
    simp only
    by_cases ck : k = key
    · rw [if_pos ck, hA, List.find?_append, List.find?_eq_none.2]
      · simp [ck]
      · intro a ha; have := hX a ha; simp; omega
    · rw [if_neg ck, List.find?_eq_none.2]
      · rfl
      · intro a ha
        rw [hA] at ha
        simp only [List.mem_append, List.mem_cons] at ha
        simp only [decide_eq_true_eq]
        rcases hc with hc | ⟨c1, _, c2⟩ | ⟨c1, _, c2⟩
        · exact absurd hc ck
        · rcases ha with ha | rfl | ha | ha
          · have := c2 a ha; omega
          · exact ck
          · have := hD a ha; omega
          · have := hT a ha; omega
        · rcases ha with ha | rfl | ha | ha
          · have := hX a ha; omega
          · exact ck
          · have := hD a ha; omega
          · have := c2 a ha; omega

private theorem init_inv : Inv init [] :=
  ⟨by simp [Asc], by simp, rfl, rfl, trivial, rfl⟩

private theorem run_ok (os : List Op) : ∀ {s : State} {A : Content}, Inv s A → AllOk A os →
    ∃ s', run s os = some s' ∧ Inv s' (os.foldl spec A) := by
  induction os with
  | nil => intro s A h _; exact ⟨s, rfl, h⟩
  | cons o os ih =>
    intro s A h hok
    have hstep : ∃ s', step s o = some s' ∧ Inv s' (spec A o) := by
      cases o with
      | insert id key dup =>
        obtain ⟨s', h1, h2⟩ := insert_ok h id key dup hok.1
        exact ⟨s', by simp [step, h1], h2⟩
      | delete id => exact delete_ok h id hok.1
    obtain ⟨s', h1, h2⟩ := hstep
    obtain ⟨s'', h3, h4⟩ := ih h2 hok.2
    exact ⟨s'', by simp [run, h1, h3], h4⟩

private theorem leaders_length : ∀ (A : Content) (p : Option Nat), (leaders p A).length ≤ A.length
  | [], _ => by simp [leaders]
  | x :: xs, p => by
    have := leaders_length xs (some x.2)
    simp only [leaders, List.length_append, List.length_cons]
    split <;> simp <;> omega

/-- C29: after any sequence of insertions and deletions (of nodes that are in the tree) no `NULL` has been dereferenced and
* walking through the tree visits exactly the elements of the specification, sorted by key, and the count is right;
* looking up a key gives the first element with this key, or nothing if there is none;
* a further insertion is refused exactly if the key is there and duplicates are not allowed -/
theorem C29_refines (os : List Op) (h : AllOk [] os) :
    ∃ s, run init os = some s ∧
      s.list.map (fun e => (e.id, e.key)) = os.foldl spec [] ∧
      (os.foldl spec []).Pairwise (fun a b => a.2 ≤ b.2) ∧
      s.count = (os.foldl spec []).length ∧
      (∀ key, find s key = ((os.foldl spec []).find? (·.2 = key)).map (·.1)) ∧
      (∀ id key dup, (∀ a ∈ os.foldl spec [], a.1 ≠ id) →
        ∃ s', insert s id key dup = some (s', accepts (os.foldl spec []) key dup)) := by
  obtain ⟨s, h1, h2⟩ := run_ok os init_inv h
  refine ⟨s, h1, ?_, h2.asc, h2.count, find_ok h2, ?_⟩
  · rw [h2.list, flags_ids]
  · intro id key dup hid
    obtain ⟨s', h3, _⟩ := insert_ok h2 id key dup hid
    exact ⟨s', h3⟩

/-- C29: the tree stays balanced: the height is at most twice the logarithm of the number of keys, every subtree's height
differs from its sibling's by at most one, and the stored balances (signed characters) are these differences -/
theorem C29_height (os : List Op) (h : AllOk [] os) :
    ∃ s, run init os = some s ∧ Bal s.root ∧ 2 ^ (height s.root / 2) ≤ (os.foldl spec []).length + 1 := by
  obtain ⟨s, h1, h2⟩ := run_ok os init_inv h
  refine ⟨s, h1, h2.bal, Nat.le_trans (height_bound _ h2.bal) ?_⟩
  rw [h2.tree]
  have := leaders_length (os.foldl spec []) none
  omega

/-- C29: the tree holds the first element of each key, in strictly ascending order: each key once -/
theorem C29_tree (os : List Op) (h : AllOk [] os) :
    ∃ s, run init os = some s ∧ (inorder s.root).Pairwise (fun a b => a.2 < b.2) ∧
      (∀ key, (∃ a ∈ os.foldl spec [], a.2 = key) ↔ ∃ a ∈ inorder s.root, a.2 = key) ∧
      ∀ a ∈ inorder s.root, (os.foldl spec []).find? (·.2 = a.2) = some a := by
  obtain ⟨s, h1, h2⟩ := run_ok os init_inv h
  have hs := (leaders_sorted _ none h2.asc (by simp)).1
  refine ⟨s, h1, ?_, ?_, ?_⟩
  · rw [h2.tree]; exact hs
  · intro key
    rw [h2.tree]
    constructor
    · rintro ⟨a, ha, rfl⟩
      rcases leader_of _ none a ha with h | h
      · cases h
      · exact h
    · rintro ⟨a, ha, rfl⟩
      exact ⟨a, leaders_sub _ _ a ha, rfl⟩
  · intro a ha
    rw [h2.tree] at ha
    obtain ⟨P, S, hps⟩ := List.append_of_mem ha
    obtain ⟨X, R, r1, _, _, r4⟩ := leaders_split _ none P S a hps
    have hasc := h2.asc
    rw [r1] at hasc ⊢
    have hX := before_leader hasc r4
    rw [List.find?_append, List.find?_eq_none.2]
    · simp
    · intro x hx; have := hX x hx; simp; omega

/-- eight insertions, one of them a duplicate, and three deletions -/
def sample : List Op :=
  [.insert 1 50 false, .insert 2 30 false, .insert 3 70 false, .insert 4 20 false, .insert 5 40 false, .insert 6 30 true,
   .insert 7 10 false, .insert 8 60 false, .insert 9 60 false, .delete 1, .delete 2, .delete 3]

example : AllOk [] sample := by
  refine ⟨?_, ?_, ?_, ?_, ?_, ?_, ?_, ?_, ?_, ⟨50, by decide⟩, ⟨30, by decide⟩, ⟨70, by decide⟩, trivial⟩ <;>
    (simp only [Op.Ok]; decide)

example : sample.foldl spec [] = [(7, 10), (4, 20), (6, 30), (5, 40), (8, 60)] := by decide

example : (run init sample).map (fun s => (inorder s.root, height s.root)) =
    some ([(7, 10), (4, 20), (6, 30), (5, 40), (8, 60)], 3) := by decide

end Verif.Avl
