import Verif.TwoHopModel
import Mathlib.Data.List.Nodup

/-! Helper lemmas for the two-hop neighbour tables: the tables as a relation, and its invariant. -/
namespace Verif.TwoHop

/-- The list of a neighbour, without the timers. -/
def lk (s : St) (n : Nat) : Option (List (Nat × Nat)) := (s.nbr n).map (fun x => x.list2.map (fun e => (e.lid, e.two)))

/-- A two-hop neighbour, without the costs. -/
def bk (s : St) (i : Nat) : Option (Nat × Int × List Nat) := (s.two i).map (fun t => (t.addr, t.cnt, t.nb.map NbEnt.nbr))

structure Good (s : St) : Prop where
  tw : ∀ i, i ∈ s.twos ↔ ∃ y, bk s i = some y
  nb : ∀ i, i ∈ s.nbrs ↔ ∃ y, lk s i = some y
  twd : s.twos.Nodup
  nbd : s.nbrs.Nodup
  lim1 : ∀ i y, bk s i = some y → i < s.next
  lim2 : ∀ i y, lk s i = some y → i < s.next
  lids : ∀ n l, lk s n = some l → (l.map Prod.fst).Nodup
  lidlt : ∀ n l, lk s n = some l → ∀ e ∈ l, e.1 < s.next
  fwd : ∀ n l, lk s n = some l → ∀ e ∈ l, ∃ y, bk s e.2 = some y ∧ n ∈ y.2.2
  bwd : ∀ i y, bk s i = some y → ∀ n ∈ y.2.2, ∃ l, lk s n = some l ∧ i ∈ l.map Prod.snd
  nd1 : ∀ n l, lk s n = some l → (l.map Prod.snd).Nodup
  nd2 : ∀ i y, bk s i = some y → y.2.2.Nodup ∧ y.2.1 = y.2.2.length
  inj : ∀ i j y z, bk s i = some y → bk s j = some z → y.1 = z.1 → i = j

/-- No two-hop neighbour without a one-hop neighbour. -/
def Full (s : St) : Prop := ∀ i y, bk s i = some y → y.2.2 ≠ []

/-- States that differ only in timers, costs, addresses of neighbours, status and willingness. -/
structure Same (s s' : St) : Prop where
  lk : ∀ i, lk s' i = lk s i
  bk : ∀ i, bk s' i = bk s i
  twos : s'.twos = s.twos
  nbrs : s'.nbrs = s.nbrs
  next : s'.next = s.next

theorem Same.refl (s : St) : Same s s := ⟨fun _ => rfl, fun _ => rfl, rfl, rfl, rfl⟩

theorem Same.trans {a b c : St} (h : Same a b) (k : Same b c) : Same a c :=
  ⟨fun i => (k.lk i).trans (h.lk i), fun i => (k.bk i).trans (h.bk i), k.twos.trans h.twos, k.nbrs.trans h.nbrs,
    k.next.trans h.next⟩

theorem Good.same {s s' : St} (h : Good s) (k : Same s s') : Good s' := by
  obtain ⟨k1, k2, k3, k4, k5⟩ := k
  exact {
    tw := by intro i; rw [k3, k2]; exact h.tw i
    nb := by intro i; rw [k4, k1]; exact h.nb i
    twd := by rw [k3]; exact h.twd
    nbd := by rw [k4]; exact h.nbd
    lim1 := by intro i y hy; rw [k5]; rw [k2] at hy; exact h.lim1 i y hy
    lim2 := by intro i y hy; rw [k5]; rw [k1] at hy; exact h.lim2 i y hy
    lids := by intro n l hl; rw [k1] at hl; exact h.lids n l hl
    lidlt := by intro n l hl; rw [k1] at hl; rw [k5]; exact h.lidlt n l hl
    fwd := by intro n l hl e he; rw [k1] at hl; rw [k2]; exact h.fwd n l hl e he
    bwd := by intro i y hy n hn; rw [k2] at hy; rw [k1]; exact h.bwd i y hy n hn
    nd1 := by intro n l hl; rw [k1] at hl; exact h.nd1 n l hl
    nd2 := by intro i y hy; rw [k2] at hy; exact h.nd2 i y hy
    inj := by intro i j y z hy hz; rw [k2] at hy hz; exact h.inj i j y z hy hz }

theorem Full.same {s s' : St} (h : Full s) (k : Same s s') : Full s' := by
  intro i y hy; rw [k.bk] at hy; exact h i y hy

theorem lk_of {s : St} {n : Nat} {x : Nbr} (h : s.nbr n = some x) : lk s n = some (x.list2.map (fun e => (e.lid, e.two))) := by
  unfold lk; rw [h]; rfl

theorem bk_of {s : St} {i : Nat} {t : Two} (h : s.two i = some t) : bk s i = some (t.addr, t.cnt, t.nb.map NbEnt.nbr) := by
  unfold bk; rw [h]; rfl

theorem of_lk {s : St} {n : Nat} {l : List (Nat × Nat)} (h : lk s n = some l) :
    ∃ x, s.nbr n = some x ∧ l = x.list2.map (fun e => (e.lid, e.two)) := by
  unfold lk at h
  cases hx : s.nbr n with
  | none => rw [hx] at h; cases h
  | some x => rw [hx] at h; cases h; exact ⟨x, rfl, rfl⟩

theorem of_bk {s : St} {i : Nat} {y : Nat × Int × List Nat} (h : bk s i = some y) :
    ∃ t, s.two i = some t ∧ y = (t.addr, t.cnt, t.nb.map NbEnt.nbr) := by
  unfold bk at h
  cases hx : s.two i with
  | none => rw [hx] at h; cases h
  | some x => rw [hx] at h; cases h; exact ⟨x, rfl, rfl⟩

/-! ## Effect of the changes -/

theorem modNbr_same (s : St) (n : Nat) (f : Nbr → Nbr)
    (hf : ∀ x, (f x).list2.map (fun e => (e.lid, e.two)) = x.list2.map (fun e => (e.lid, e.two))) : Same s (modNbr s n f) := by
  refine ⟨?_, fun _ => rfl, rfl, rfl, rfl⟩
  intro i
  unfold lk modNbr
  simp only
  by_cases h : i = n
  · rw [if_pos h]
    cases s.nbr i with
    | none => rfl
    | some x => simp only [Option.map_some, hf]
  · rw [if_neg h]

theorem modTwo_same (s : St) (n : Nat) (f : Two → Two)
    (hf : ∀ x, (f x).addr = x.addr ∧ (f x).cnt = x.cnt ∧ (f x).nb.map NbEnt.nbr = x.nb.map NbEnt.nbr) : Same s (modTwo s n f) := by
  refine ⟨fun _ => rfl, ?_, rfl, rfl, rfl⟩
  intro i
  unfold bk modTwo
  simp only
  by_cases h : i = n
  · rw [if_pos h]
    cases s.two i with
    | none => rfl
    | some x => simp only [Option.map_some, hf]
  · rw [if_neg h]

theorem setTimer_same (s : St) (n lid now vtime : Nat) : Same s (setTimer s n lid now vtime) := by
  refine modNbr_same _ _ _ ?_
  intro x
  simp only [List.map_map]
  refine List.map_congr_left ?_
  intro e _
  simp only [Function.comp]
  split <;> rfl

theorem resetCost_same (s : St) (n t : Nat) : Same s (resetCost s n t) := by
  refine modTwo_same _ _ _ ?_
  intro x
  refine ⟨rfl, rfl, ?_⟩
  simp only [List.map_map]
  refine List.map_congr_left ?_
  intro e _
  simp only [Function.comp]
  split <;> rfl

theorem better_nbr (a b : Nat) (e : NbEnt) : (better a b e).nbr = e.nbr := by
  unfold better; split <;> rfl

theorem lk_modNbr (s : St) (n i : Nat) (f : Nbr → Nbr) (g : List (Nat × Nat) → List (Nat × Nat))
    (hf : ∀ x, (f x).list2.map (fun e => (e.lid, e.two)) = g (x.list2.map (fun e => (e.lid, e.two)))) :
    lk (modNbr s n f) i = if i = n then (lk s i).map g else lk s i := by
  unfold lk modNbr
  simp only
  by_cases h : i = n
  · rw [if_pos h, if_pos h]
    cases s.nbr i with
    | none => rfl
    | some x => simp only [Option.map_some, hf]
  · rw [if_neg h, if_neg h]

theorem bk_modTwo (s : St) (n i : Nat) (f : Two → Two) (g : Nat × Int × List Nat → Nat × Int × List Nat)
    (hf : ∀ x, ((f x).addr, (f x).cnt, (f x).nb.map NbEnt.nbr) = g (x.addr, x.cnt, x.nb.map NbEnt.nbr)) :
    bk (modTwo s n f) i = if i = n then (bk s i).map g else bk s i := by
  unfold bk modTwo
  simp only
  by_cases h : i = n
  · rw [if_pos h, if_pos h]
    cases s.two i with
    | none => rfl
    | some x => simp only [Option.map_some, hf]
  · rw [if_neg h, if_neg h]

theorem link_lk (s : St) (n t i : Nat) : lk (link s n t) i = if i = n then (lk s i).map (fun l => (s.next, t) :: l) else lk s i := by
  unfold link
  refine Eq.trans ?_ (lk_modNbr (modTwo s t (fun x => { x with cnt := x.cnt + 1, nb := { nbr := n, second := BROKEN, path := BROKEN, saved := BROKEN } :: x.nb })) n i
    (fun x => { x with list2 := { lid := s.next, two := t, timer := none } :: x.list2 }) (fun l => (s.next, t) :: l) ?_)
  · rfl
  · intro x; rfl

theorem link_bk (s : St) (n t i : Nat) :
    bk (link s n t) i = if i = t then (bk s i).map (fun y => (y.1, y.2.1 + 1, n :: y.2.2)) else bk s i := by
  unfold link
  refine Eq.trans ?_ (bk_modTwo s t i (fun x => { x with cnt := x.cnt + 1, nb := { nbr := n, second := BROKEN, path := BROKEN, saved := BROKEN } :: x.nb })
    (fun y => (y.1, y.2.1 + 1, n :: y.2.2)) ?_)
  · rfl
  · intro x; rfl

/-- Linking a neighbour to a two-hop neighbour it is not linked to. -/
theorem link_good {s : St} (h : Good s) {n t : Nat} {l : List (Nat × Nat)} {y : Nat × Int × List Nat} (hl : lk s n = some l)
    (hy : bk s t = some y) (hnew : t ∉ l.map Prod.snd) : Good (link s n t) := by
  have e1 := link_lk s n t
  have e2 := link_bk s n t
  have enx : (link s n t).next = s.next + 1 := rfl
  have etw : (link s n t).twos = s.twos := rfl
  have enb : (link s n t).nbrs = s.nbrs := rfl
  have hnn : n ∉ y.2.2 := by
    intro hc
    obtain ⟨l', h1, h2⟩ := h.bwd t y hy n hc
    rw [hl] at h1; cases h1; exact hnew h2
  have L : ∀ i m, lk (link s n t) i = some m → (i = n ∧ m = (s.next, t) :: l) ∨ (i ≠ n ∧ lk s i = some m) := by
    intro i m hm
    rw [e1] at hm
    by_cases hi : i = n
    · subst hi; rw [if_pos rfl, hl] at hm; cases hm; exact Or.inl ⟨rfl, rfl⟩
    · rw [if_neg hi] at hm; exact Or.inr ⟨hi, hm⟩
  have B : ∀ i m, bk (link s n t) i = some m → (i = t ∧ m = (y.1, y.2.1 + 1, n :: y.2.2)) ∨ (i ≠ t ∧ bk s i = some m) := by
    intro i m hm
    rw [e2] at hm
    by_cases hi : i = t
    · subst hi; rw [if_pos rfl, hy] at hm; cases hm; exact Or.inl ⟨rfl, rfl⟩
    · rw [if_neg hi] at hm; exact Or.inr ⟨hi, hm⟩
  have BL : ∀ i z, bk s i = some z → ∃ z', bk (link s n t) i = some z' ∧ z'.1 = z.1 ∧ (∀ k ∈ z.2.2, k ∈ z'.2.2) := by
    intro i z hz
    rw [e2]
    by_cases hi : i = t
    · subst hi; rw [if_pos rfl, hz]; exact ⟨_, rfl, rfl, fun k hk => List.mem_cons_of_mem _ hk⟩
    · rw [if_neg hi]; exact ⟨z, hz, rfl, fun k hk => hk⟩
  have LL : ∀ i z, lk s i = some z → ∃ z', lk (link s n t) i = some z' ∧ (∀ k ∈ z, k ∈ z') := by
    intro i z hz
    rw [e1]
    by_cases hi : i = n
    · subst hi; rw [if_pos rfl, hz]; exact ⟨_, rfl, fun k hk => List.mem_cons_of_mem _ hk⟩
    · rw [if_neg hi]; exact ⟨z, hz, fun k hk => hk⟩
  have hny : bk (link s n t) t = some (y.1, y.2.1 + 1, n :: y.2.2) := by rw [e2, if_pos rfl, hy]; rfl
  have hnl : lk (link s n t) n = some ((s.next, t) :: l) := by rw [e1, if_pos rfl, hl]; rfl
  exact {
    tw := by
      intro i; rw [etw, h.tw]
      constructor
      · rintro ⟨z, hz⟩; obtain ⟨z', h1, -⟩ := BL i z hz; exact ⟨z', h1⟩
      · rintro ⟨z, hz⟩
        rcases B i z hz with ⟨rfl, -⟩ | ⟨-, h2⟩
        · exact ⟨y, hy⟩
        · exact ⟨z, h2⟩
    nb := by
      intro i; rw [enb, h.nb]
      constructor
      · rintro ⟨z, hz⟩; obtain ⟨z', h1, -⟩ := LL i z hz; exact ⟨z', h1⟩
      · rintro ⟨z, hz⟩
        rcases L i z hz with ⟨rfl, -⟩ | ⟨-, h2⟩
        · exact ⟨l, hl⟩
        · exact ⟨z, h2⟩
    twd := h.twd
    nbd := h.nbd
    lim1 := by
      intro i z hz; rw [enx]
      rcases B i z hz with ⟨rfl, -⟩ | ⟨-, h2⟩
      · have := h.lim1 _ _ hy; omega
      · have := h.lim1 _ _ h2; omega
    lim2 := by
      intro i z hz; rw [enx]
      rcases L i z hz with ⟨rfl, -⟩ | ⟨-, h2⟩
      · have := h.lim2 _ _ hl; omega
      · have := h.lim2 _ _ h2; omega
    lids := by
      intro i z hz
      rcases L i z hz with ⟨rfl, rfl⟩ | ⟨-, h2⟩
      · rw [List.map_cons, List.nodup_cons]
        refine ⟨?_, h.lids _ _ hl⟩
        intro hc
        obtain ⟨e, he, he'⟩ := List.mem_map.1 hc
        have := h.lidlt _ _ hl e he
        omega
      · exact h.lids _ _ h2
    lidlt := by
      intro i z hz e he; rw [enx]
      rcases L i z hz with ⟨rfl, rfl⟩ | ⟨-, h2⟩
      · rcases List.mem_cons.1 he with rfl | he
        · exact Nat.lt_succ_self _
        · have := h.lidlt _ _ hl e he; omega
      · have := h.lidlt _ _ h2 e he; omega
    fwd := by
      intro i z hz e he
      rcases L i z hz with ⟨rfl, rfl⟩ | ⟨-, h2⟩
      · rcases List.mem_cons.1 he with rfl | he
        · exact ⟨_, hny, List.mem_cons_self ..⟩
        · obtain ⟨w, hw, hw'⟩ := h.fwd _ _ hl e he
          obtain ⟨z', a, -, b⟩ := BL _ _ hw
          exact ⟨z', a, b _ hw'⟩
      · obtain ⟨w, hw, hw'⟩ := h.fwd _ _ h2 e he
        obtain ⟨z', a, -, b⟩ := BL _ _ hw
        exact ⟨z', a, b _ hw'⟩
    bwd := by
      intro i z hz k hk
      rcases B i z hz with ⟨rfl, rfl⟩ | ⟨-, h2⟩
      · rcases List.mem_cons.1 hk with rfl | hk
        · exact ⟨_, hnl, by simp⟩
        · obtain ⟨w, hw, hw'⟩ := h.bwd _ _ hy k hk
          obtain ⟨z', a, b⟩ := LL _ _ hw
          obtain ⟨e, he, he'⟩ := List.mem_map.1 hw'
          exact ⟨z', a, List.mem_map.2 ⟨e, b e he, he'⟩⟩
      · obtain ⟨w, hw, hw'⟩ := h.bwd _ _ h2 k hk
        obtain ⟨z', a, b⟩ := LL _ _ hw
        obtain ⟨e, he, he'⟩ := List.mem_map.1 hw'
        exact ⟨z', a, List.mem_map.2 ⟨e, b e he, he'⟩⟩
    nd1 := by
      intro i z hz
      rcases L i z hz with ⟨rfl, rfl⟩ | ⟨-, h2⟩
      · rw [List.map_cons, List.nodup_cons]; exact ⟨hnew, h.nd1 _ _ hl⟩
      · exact h.nd1 _ _ h2
    nd2 := by
      intro i z hz
      rcases B i z hz with ⟨rfl, rfl⟩ | ⟨-, h2⟩
      · have := h.nd2 _ _ hy
        refine ⟨List.nodup_cons.2 ⟨hnn, this.1⟩, ?_⟩
        show y.2.1 + 1 = (((n :: y.2.2).length : Nat) : Int)
        rw [List.length_cons, this.2]; omega
      · exact h.nd2 _ _ h2
    inj := by
      intro i j a b ha hb hab
      have key : ∀ i a, bk (link s n t) i = some a → ∃ a', bk s i = some a' ∧ a'.1 = a.1 := by
        intro i a ha
        rcases B i a ha with ⟨rfl, rfl⟩ | ⟨-, h2⟩
        · exact ⟨y, hy, rfl⟩
        · exact ⟨a, h2, rfl⟩
      obtain ⟨a', ha', ea⟩ := key i a ha
      obtain ⟨b', hb', eb⟩ := key j b hb
      exact h.inj i j a' b' ha' hb' (by rw [ea, eb, hab]) }

/-- A new two-hop neighbour with a new address. -/
theorem newTwo_good {s : St} (h : Good s) {a : Nat} (ha : ∀ i y, bk s i = some y → y.1 ≠ a) : Good (newTwo s a) := by
  have e2 : ∀ i, bk (newTwo s a) i = if i = s.next then some (a, 0, []) else bk s i := by
    intro i
    unfold bk newTwo
    simp only
    by_cases hi : i = s.next
    · rw [if_pos hi, if_pos hi]; rfl
    · rw [if_neg hi, if_neg hi]
  have e1 : ∀ i, lk (newTwo s a) i = lk s i := fun _ => rfl
  have enx : (newTwo s a).next = s.next + 1 := rfl
  have etw : (newTwo s a).twos = s.next :: s.twos := rfl
  have enb : (newTwo s a).nbrs = s.nbrs := rfl
  have hfresh : ∀ y, bk s s.next ≠ some y := by
    intro y hy; have := h.lim1 _ _ hy; omega
  have B : ∀ i m, bk (newTwo s a) i = some m → (i = s.next ∧ m = (a, 0, [])) ∨ (i ≠ s.next ∧ bk s i = some m) := by
    intro i m hm
    rw [e2] at hm
    by_cases hi : i = s.next
    · rw [if_pos hi] at hm; cases hm; exact Or.inl ⟨hi, rfl⟩
    · rw [if_neg hi] at hm; exact Or.inr ⟨hi, hm⟩
  have BL : ∀ i z, bk s i = some z → bk (newTwo s a) i = some z := by
    intro i z hz
    rw [e2, if_neg, hz]
    intro hc; subst hc; exact hfresh _ hz
  exact {
    tw := by
      intro i; rw [etw, List.mem_cons, h.tw, e2]
      by_cases hi : i = s.next
      · rw [if_pos hi]; exact ⟨fun _ => ⟨_, rfl⟩, fun _ => Or.inl hi⟩
      · rw [if_neg hi]; exact ⟨fun k => k.resolve_left hi, fun k => Or.inr k⟩
    nb := by intro i; rw [e1]; exact h.nb i
    twd := by
      rw [etw, List.nodup_cons]
      refine ⟨?_, h.twd⟩
      intro hc
      obtain ⟨y, hy⟩ := (h.tw _).1 hc
      exact hfresh _ hy
    nbd := h.nbd
    lim1 := by
      intro i z hz; rw [enx]
      rcases B i z hz with ⟨rfl, -⟩ | ⟨-, h2⟩
      · omega
      · have := h.lim1 _ _ h2; omega
    lim2 := by intro i z hz; rw [e1] at hz; rw [enx]; have := h.lim2 _ _ hz; omega
    lids := by intro i z hz; rw [e1] at hz; exact h.lids _ _ hz
    lidlt := by intro i z hz e he; rw [e1] at hz; rw [enx]; have := h.lidlt _ _ hz e he; omega
    fwd := by
      intro i z hz e he
      rw [e1] at hz
      obtain ⟨w, hw, hw'⟩ := h.fwd _ _ hz e he
      exact ⟨w, BL _ _ hw, hw'⟩
    bwd := by
      intro i z hz k hk
      rw [e1]
      rcases B i z hz with ⟨rfl, rfl⟩ | ⟨-, h2⟩
      · cases hk
      · exact h.bwd _ _ h2 k hk
    nd1 := by intro i z hz; rw [e1] at hz; exact h.nd1 _ _ hz
    nd2 := by
      intro i z hz
      rcases B i z hz with ⟨rfl, rfl⟩ | ⟨-, h2⟩
      · exact ⟨List.nodup_nil, rfl⟩
      · exact h.nd2 _ _ h2
    inj := by
      intro i j u v hu hv huv
      rcases B i u hu with ⟨rfl, rfl⟩ | ⟨-, h2⟩ <;> rcases B j v hv with ⟨rfl, rfl⟩ | ⟨-, h3⟩
      · rfl
      · exact absurd huv.symm (ha _ _ h3)
      · exact absurd huv (ha _ _ h2)
      · exact h.inj _ _ _ _ h2 h3 huv }

theorem newTwo_bk (s : St) (a i : Nat) : bk (newTwo s a) i = if i = s.next then some (a, 0, []) else bk s i := by
  unfold bk newTwo
  simp only
  by_cases hi : i = s.next
  · rw [if_pos hi, if_pos hi]; rfl
  · rw [if_neg hi, if_neg hi]

/-- `olsr_lookup_my_neighbors` reads no freed memory and finds the entry. -/
theorem scan_spec {s : St} (h : Good s) {n : Nat} {x : Nbr} (hx : s.nbr n = some x) (a : Nat) :
    ∃ r, scan s a x.list2 = some r ∧
      (∀ e, r = some e → e ∈ x.list2 ∧ ∃ t, s.two e.two = some t ∧ t.addr = a) ∧
      (r = none → ∀ e ∈ x.list2, ∀ t, s.two e.two = some t → t.addr ≠ a) := by
  have key : ∀ l : List L2, (∀ e ∈ l, ∃ t, s.two e.two = some t) →
      ∃ r, scan s a l = some r ∧ (∀ e, r = some e → e ∈ l ∧ ∃ t, s.two e.two = some t ∧ t.addr = a) ∧
      (r = none → ∀ e ∈ l, ∀ t, s.two e.two = some t → t.addr ≠ a) := by
    intro l
    induction l with
    | nil => intro _; exact ⟨none, rfl, (fun e he => (by cases he)), fun _ e he => (by cases he)⟩
    | cons e l ih =>
      intro hl
      obtain ⟨t, ht⟩ := hl e (List.mem_cons_self ..)
      unfold scan
      rw [ht]
      simp only
      by_cases ha : t.addr = a
      · rw [if_pos ha]
        refine ⟨some e, rfl, ?_, fun hc => (by cases hc)⟩
        intro e' he'; cases he'
        exact ⟨List.mem_cons_self .., t, ht, ha⟩
      · rw [if_neg ha]
        obtain ⟨r, h1, h2, h3⟩ := ih (fun e' he' => hl e' (List.mem_cons_of_mem _ he'))
        refine ⟨r, h1, ?_, ?_⟩
        · intro e' he'
          obtain ⟨k1, k2⟩ := h2 e' he'
          exact ⟨List.mem_cons_of_mem _ k1, k2⟩
        · intro hr e' he' t' ht'
          rcases List.mem_cons.1 he' with rfl | he'
          · rw [ht] at ht'; cases ht'; exact ha
          · exact h3 hr e' he' t' ht'
  refine key x.list2 ?_
  intro e he
  obtain ⟨y, hy, -⟩ := h.fwd n _ (lk_of hx) (e.lid, e.two) (List.mem_map.2 ⟨e, he, rfl⟩)
  obtain ⟨t, ht, -⟩ := of_bk hy
  exact ⟨t, ht⟩

theorem lookupTwo_some {env : Env} {s : St} {a i : Nat} (h : lookupTwo env s a = some i) :
    ∃ t, s.two i = some t ∧ (t.addr = a ∨ a ∈ env.aliases t.addr) := by
  unfold lookupTwo at h
  have := List.find?_some h
  cases ht : s.two i with
  | none => rw [ht] at this; cases this
  | some t =>
    rw [ht] at this
    simp only [Option.any_some, isTwo, Bool.and_eq_true, Bool.or_eq_true, beq_iff_eq, List.contains_iff_mem] at this
    exact ⟨t, rfl, this.2⟩

theorem lookupTwo_none {env : Env} {s : St} {a : Nat} (h : lookupTwo env s a = none) :
    ∀ i ∈ s.twos, ∀ t, s.two i = some t → t.addr ≠ a := by
  intro i hi t ht hc
  unfold lookupTwo at h
  have := List.find?_eq_none.1 h i hi
  rw [ht] at this
  apply this
  simp [isTwo, hc]

/-! ## Removing a link -/

/-- What `unlink` does to the tables. -/
theorem unlink_eq {s : St} (h : Good s) {n : Nat} {x : Nbr} (hx : s.nbr n = some x) {e : L2} (he : e ∈ x.list2) :
    ∃ s', unlink n s e = some s' ∧ s'.nbrs = s.nbrs ∧ s'.next = s.next ∧
      (∀ i, lk s' i = if i = n then (lk s i).map (fun l => l.filter (fun p => p.1 != e.lid)) else lk s i) ∧
      (∀ i, s'.nbr i = if i = n then some { x with list2 := x.list2.filter (fun y => y.lid != e.lid) } else s.nbr i) ∧
      ∃ t, s.two e.two = some t ∧
        ((t.cnt - 1 < 1 ∧ (∀ i, s'.two i = if i = e.two then none else s.two i) ∧
            s'.twos = s.twos.filter (· != e.two)) ∨
         (¬ t.cnt - 1 < 1 ∧ (∀ i, s'.two i = if i = e.two then some { t with cnt := t.cnt - 1, nb := t.nb.filter (fun b => b.nbr != n) } else s.two i) ∧
            s'.twos = s.twos)) := by
  obtain ⟨y, hy, -⟩ := h.fwd n _ (lk_of hx) (e.lid, e.two) (List.mem_map.2 ⟨e, he, rfl⟩)
  obtain ⟨t, ht, -⟩ := of_bk hy
  have h1 : (modTwo s e.two (fun x => { x with cnt := x.cnt - 1 })).two e.two = some { t with cnt := t.cnt - 1 } := by
    unfold modTwo; simp only; rw [if_pos trivial]; simp [ht]
  have h2 : ∀ s1 : St, s1.two e.two = some { t with cnt := t.cnt - 1 } →
      (modTwo s1 e.two (fun x => { x with nb := x.nb.filter (fun b => b.nbr != n) })).two e.two =
        some { t with cnt := t.cnt - 1, nb := t.nb.filter (fun b => b.nbr != n) } := by
    intro s1 hs1
    unfold modTwo; simp only; rw [if_pos trivial, hs1]; rfl
  have hlkf : ∀ (s1 : St) i, lk (modNbr s1 n (fun x => { x with list2 := x.list2.filter (fun y => y.lid != e.lid) })) i =
      if i = n then (lk s1 i).map (fun l => l.filter (fun p => p.1 != e.lid)) else lk s1 i := by
    intro s1 i
    refine lk_modNbr _ _ _ _ _ ?_
    intro z
    rw [List.filter_map]
    rfl
  have hnbf : ∀ (s1 : St) i, s1.nbr = s.nbr → (modNbr s1 n (fun x => { x with list2 := x.list2.filter (fun y => y.lid != e.lid) })).nbr i =
      if i = n then some { x with list2 := x.list2.filter (fun y => y.lid != e.lid) } else s.nbr i := by
    intro s1 i hs1
    unfold modNbr; simp only; rw [hs1]
    by_cases hi : i = n
    · rw [if_pos hi, if_pos hi, hi, hx]; rfl
    · rw [if_neg hi, if_neg hi]
  unfold unlink
  rw [ht]
  simp only
  unfold delNbrPtr
  rw [h1]
  simp only
  unfold delL2
  rw [h2 _ h1]
  simp only
  by_cases hc : t.cnt - 1 < 1
  · rw [if_pos hc]
    refine ⟨_, rfl, rfl, rfl, ?_, ?_, t, rfl, Or.inl ⟨hc, ?_, rfl⟩⟩
    · intro i; rw [hlkf]; rfl
    · intro i; exact hnbf _ i rfl
    · intro i
      unfold modNbr freeTwo modTwo
      simp only
      by_cases hi : i = e.two
      · rw [if_pos hi, if_pos hi]
      · rw [if_neg hi, if_neg hi, if_neg hi, if_neg hi]
  · rw [if_neg hc]
    refine ⟨_, rfl, rfl, rfl, ?_, ?_, t, rfl, Or.inr ⟨hc, ?_, rfl⟩⟩
    · intro i; rw [hlkf]; rfl
    · intro i; exact hnbf _ i rfl
    · intro i
      unfold modNbr modTwo
      simp only
      by_cases hi : i = e.two
      · subst hi; rw [if_pos rfl, if_pos rfl, if_pos rfl, ht]; rfl
      · rw [if_neg hi, if_neg hi, if_neg hi]

/-- The link relation without one pair is again good. -/
theorem unlink_good {s s' : St} (h : Good s) (hF : Full s) {n : Nat} {x : Nbr} (hx : s.nbr n = some x) {e : L2} (he : e ∈ x.list2)
    (hs : unlink n s e = some s') : Good s' ∧ Full s' := by
  obtain ⟨s'', e0, enb, enx, elk, -, t, ht, hcase⟩ := unlink_eq h hx he
  rw [e0] at hs; cases hs
  obtain ⟨l, hl⟩ : ∃ l, lk s n = some l := ⟨_, lk_of hx⟩
  have hly : (e.lid, e.two) ∈ l := by rw [lk_of hx] at hl; cases hl; exact List.mem_map.2 ⟨e, he, rfl⟩
  obtain ⟨y, hy, hny⟩ := h.fwd n _ hl _ hly
  have hyt : y = (t.addr, t.cnt, t.nb.map NbEnt.nbr) := by
    have := bk_of ht; rw [hy] at this; cases this; rfl
  -- filtering by lid is filtering by two-hop neighbour
  have hfil : l.filter (fun p => p.1 != e.lid) = l.filter (fun p => p.2 != e.two) := by
    refine List.filter_congr ?_
    intro p hp
    have a1 : p.1 = e.lid ↔ p.2 = e.two := by
      constructor
      · intro hpe
        have := List.inj_on_of_nodup_map (h.lids _ _ hl) hp hly hpe
        rw [this]
      · intro hpe
        have := List.inj_on_of_nodup_map (h.nd1 _ _ hl) hp hly hpe
        rw [this]
    by_cases hq : p.1 = e.lid
    · rw [hq, a1.1 hq, bne_self_eq_false, bne_self_eq_false]
    · have h2 : p.2 ≠ e.two := fun hc => hq (a1.2 hc)
      rw [bne_iff_ne.2 hq, bne_iff_ne.2 h2]
  have L : ∀ i m, lk s' i = some m → (i = n ∧ m = l.filter (fun p => p.2 != e.two)) ∨ (i ≠ n ∧ lk s i = some m) := by
    intro i m hm
    rw [elk] at hm
    by_cases hi : i = n
    · subst hi; rw [if_pos rfl, hl] at hm
      rw [Option.map_some] at hm
      cases hm; exact Or.inl ⟨rfl, hfil⟩
    · rw [if_neg hi] at hm; exact Or.inr ⟨hi, hm⟩
  have L' : ∀ i m, lk s i = some m → ∃ m', lk s' i = some m' ∧ ∀ p ∈ m, (i ≠ n ∨ p.2 ≠ e.two) → p ∈ m' := by
    intro i m hm
    rw [elk]
    by_cases hi : i = n
    · subst hi; rw [if_pos rfl, hm]; rw [hl] at hm; cases hm
      refine ⟨_, rfl, ?_⟩
      show ∀ p ∈ l, _ → p ∈ l.filter (fun p => p.1 != e.lid)
      rw [hfil]
      intro p hp hq
      exact List.mem_filter.2 ⟨hp, by simpa using hq.resolve_left (by simp)⟩
    · rw [if_neg hi]; exact ⟨m, hm, fun p hp _ => hp⟩
  -- the two-hop side
  have hcnt : t.cnt = (t.nb.map NbEnt.nbr).length ∧ (t.nb.map NbEnt.nbr).Nodup := by
    have := h.nd2 _ _ hy; rw [hyt] at this; exact ⟨this.2, this.1⟩
  have hnm : n ∈ t.nb.map NbEnt.nbr := by rw [hyt] at hny; exact hny
  have hfm : (t.nb.filter (fun b => b.nbr != n)).map NbEnt.nbr = (t.nb.map NbEnt.nbr).filter (· != n) := by
    rw [List.filter_map]; rfl
  have hlen : ((t.nb.map NbEnt.nbr).filter (· != n)).length + 1 = (t.nb.map NbEnt.nbr).length := by
    have := hcnt.2.erase_eq_filter n
    rw [← this, List.length_erase_of_mem hnm]
    have : 0 < (t.nb.map NbEnt.nbr).length := List.length_pos_of_mem hnm
    omega
  -- unified description of the two-hop table
  have B : ∀ i m, bk s' i = some m → (i = e.two ∧ m.1 = t.addr ∧ m.2.2 = (t.nb.map NbEnt.nbr).filter (· != n) ∧
      m.2.1 = m.2.2.length ∧ m.2.2 ≠ []) ∨ (i ≠ e.two ∧ bk s i = some m) := by
    intro i m hm
    obtain ⟨t', ht', rfl⟩ := of_bk hm
    rcases hcase with ⟨hc, e3, -⟩ | ⟨hc, e3, -⟩
    · rw [e3] at ht'
      by_cases hi : i = e.two
      · rw [if_pos hi] at ht'; cases ht'
      · rw [if_neg hi] at ht'; exact Or.inr ⟨hi, bk_of ht'⟩
    · rw [e3] at ht'
      by_cases hi : i = e.two
      · rw [if_pos hi] at ht'; cases ht'
        refine Or.inl ⟨hi, rfl, hfm, ?_, ?_⟩
        · simp only [hfm]; omega
        · simp only [hfm]
          intro hc'
          rw [hc', List.length_nil] at hlen
          omega
      · rw [if_neg hi] at ht'; exact Or.inr ⟨hi, bk_of ht'⟩
  have B' : ∀ i, i ≠ e.two → bk s' i = bk s i := by
    intro i hi
    unfold bk
    rcases hcase with ⟨hc, e3, -⟩ | ⟨hc, e3, -⟩ <;> rw [e3, if_neg hi]
  -- if the entry goes, nobody else links to it
  have Bkeep : ∀ k, k ≠ n → k ∈ t.nb.map NbEnt.nbr → ∃ m, bk s' e.two = some m ∧ k ∈ m.2.2 := by
    intro k hk hk'
    have hkf : k ∈ (t.nb.map NbEnt.nbr).filter (· != n) := List.mem_filter.2 ⟨hk', by simpa using hk⟩
    rcases hcase with ⟨hc, e3, -⟩ | ⟨hc, e3, -⟩
    · have : 0 < ((t.nb.map NbEnt.nbr).filter (· != n)).length := List.length_pos_of_mem hkf
      omega
    · refine ⟨_, bk_of ((e3 e.two).trans (if_pos rfl)), ?_⟩
      rw [hfm]; exact hkf
  refine ⟨{
    tw := ?_, nb := ?_, twd := ?_, nbd := ?_, lim1 := ?_, lim2 := ?_, lids := ?_, lidlt := ?_, fwd := ?_, bwd := ?_
    nd1 := ?_, nd2 := ?_, inj := ?_ }, ?_⟩
  · intro i
    rcases hcase with ⟨hc, e3, etw⟩ | ⟨hc, e3, etw⟩
    · rw [etw, List.mem_filter, h.tw]
      by_cases hi : i = e.two
      · subst hi
        constructor
        · rintro ⟨-, hq⟩; simp at hq
        · rintro ⟨m, hm⟩
          obtain ⟨t', ht', -⟩ := of_bk hm
          rw [e3, if_pos rfl] at ht'; cases ht'
      · rw [B' i hi]
        constructor
        · rintro ⟨k, -⟩; exact k
        · intro k; exact ⟨k, by simpa using hi⟩
    · rw [etw, h.tw]
      by_cases hi : i = e.two
      · subst hi
        exact ⟨fun _ => ⟨_, bk_of ((e3 _).trans (if_pos rfl))⟩, fun _ => ⟨y, hy⟩⟩
      · rw [B' i hi]
  · intro i
    rw [enb, h.nb]
    constructor
    · rintro ⟨m, hm⟩; obtain ⟨m', hm', -⟩ := L' i m hm; exact ⟨m', hm'⟩
    · rintro ⟨m, hm⟩
      rcases L i m hm with ⟨rfl, -⟩ | ⟨-, h2⟩
      · exact ⟨l, hl⟩
      · exact ⟨m, h2⟩
  · rcases hcase with ⟨hc, e3, etw⟩ | ⟨hc, e3, etw⟩
    · rw [etw]; exact h.twd.filter _
    · rw [etw]; exact h.twd
  · rw [enb]; exact h.nbd
  · intro i m hm
    rw [enx]
    rcases B i m hm with ⟨rfl, -⟩ | ⟨-, h2⟩
    · exact h.lim1 _ _ hy
    · exact h.lim1 _ _ h2
  · intro i m hm
    rw [enx]
    rcases L i m hm with ⟨rfl, -⟩ | ⟨-, h2⟩
    · exact h.lim2 _ _ hl
    · exact h.lim2 _ _ h2
  · intro i m hm
    rcases L i m hm with ⟨rfl, rfl⟩ | ⟨-, h2⟩
    · exact (h.lids _ _ hl).sublist (List.filter_sublist.map _)
    · exact h.lids _ _ h2
  · intro i m hm p hp
    rw [enx]
    rcases L i m hm with ⟨rfl, rfl⟩ | ⟨-, h2⟩
    · exact h.lidlt _ _ hl p (List.mem_filter.1 hp).1
    · exact h.lidlt _ _ h2 p hp
  · intro i m hm p hp
    rcases L i m hm with ⟨rfl, rfl⟩ | ⟨hi, h2⟩
    · obtain ⟨hp1, hp2⟩ := List.mem_filter.1 hp
      obtain ⟨z, hz, hz'⟩ := h.fwd _ _ hl p hp1
      have : p.2 ≠ e.two := by simpa using hp2
      exact ⟨z, (B' _ this).trans hz, hz'⟩
    · obtain ⟨z, hz, hz'⟩ := h.fwd _ _ h2 p hp
      by_cases hpe : p.2 = e.two
      · rw [hpe] at hz ⊢
        rw [hy] at hz; cases hz
        exact Bkeep i hi (by rw [hyt] at hz'; exact hz')
      · exact ⟨z, (B' _ hpe).trans hz, hz'⟩
  · intro i m hm k hk
    rcases B i m hm with ⟨rfl, -, h3, -, -⟩ | ⟨hi, h2⟩
    · rw [h3] at hk
      obtain ⟨k1, k2⟩ := List.mem_filter.1 hk
      obtain ⟨z, hz, hz'⟩ := h.bwd _ _ hy k (by rw [hyt]; exact k1)
      obtain ⟨z', a, b⟩ := L' _ _ hz
      obtain ⟨p, hp, hp'⟩ := List.mem_map.1 hz'
      exact ⟨z', a, List.mem_map.2 ⟨p, b p hp (Or.inl (by simpa using k2)), hp'⟩⟩
    · obtain ⟨z, hz, hz'⟩ := h.bwd _ _ h2 k hk
      obtain ⟨z', a, b⟩ := L' _ _ hz
      obtain ⟨p, hp, hp'⟩ := List.mem_map.1 hz'
      exact ⟨z', a, List.mem_map.2 ⟨p, b p hp (Or.inr (by rw [hp']; exact hi)), hp'⟩⟩
  · intro i m hm
    rcases L i m hm with ⟨rfl, rfl⟩ | ⟨-, h2⟩
    · exact (h.nd1 _ _ hl).sublist (List.filter_sublist.map _)
    · exact h.nd1 _ _ h2
  · intro i m hm
    rcases B i m hm with ⟨rfl, -, h3, h4, -⟩ | ⟨hi, h2⟩
    · refine ⟨?_, h4⟩
      rw [h3]; exact hcnt.2.filter _
    · exact h.nd2 _ _ h2
  · intro i j a b ha hb hab
    have key : ∀ i a, bk s' i = some a → ∃ a', bk s i = some a' ∧ a'.1 = a.1 := by
      intro i a ha
      rcases B i a ha with ⟨rfl, h2, -⟩ | ⟨-, h2⟩
      · exact ⟨y, hy, by rw [hyt, h2]⟩
      · exact ⟨a, h2, rfl⟩
    obtain ⟨a', ha', ea⟩ := key i a ha
    obtain ⟨b', hb', eb⟩ := key j b hb
    exact h.inj i j a' b' ha' hb' (by rw [ea, eb, hab])
  · intro i m hm
    rcases B i m hm with ⟨rfl, -, -, -, h5⟩ | ⟨hi, h2⟩
    · exact h5
    · exact hF _ _ h2

/-! ## Deleting a neighbour -/

theorem loop_unlink {n : Nat} : ∀ (l : List L2) (s : St) (x : Nbr), Good s → Full s → s.nbr n = some x → x.list2 = l →
    ∃ s', loop (unlink n) s l = some s' ∧ Good s' ∧ Full s' ∧ s'.nbr n = some { x with list2 := [] } ∧ s'.next = s.next ∧
      (∀ i, i ≠ n → s'.nbr i = s.nbr i) ∧ s'.nbrs = s.nbrs := by
  intro l
  induction l with
  | nil =>
    intro s x h hF hx hl
    refine ⟨s, rfl, h, hF, ?_, rfl, fun _ _ => rfl, rfl⟩
    rw [hx]; cases x; cases hl; rfl
  | cons e r ih =>
    intro s x h hF hx hl
    have he : e ∈ x.list2 := by rw [hl]; exact List.mem_cons_self ..
    obtain ⟨s1, h1, h2, h3, h4, h5, -⟩ := unlink_eq h hx he
    obtain ⟨g1, g2⟩ := unlink_good h hF hx he h1
    have hfil : x.list2.filter (fun y => y.lid != e.lid) = r := by
      have hnd := h.lids _ _ (lk_of hx)
      rw [List.map_map, hl] at hnd
      rw [hl, List.filter_cons_of_neg (by simp)]
      rw [List.map_cons, List.nodup_cons] at hnd
      refine List.filter_eq_self.2 ?_
      intro y hy
      refine bne_iff_ne.2 ?_
      intro hc
      exact hnd.1 (List.mem_map.2 ⟨y, hy, hc⟩)
    have hx1 : s1.nbr n = some { x with list2 := r } := by rw [h5, if_pos rfl, hfil]
    obtain ⟨s', k1, k2, k3, k4, k5, k6, k7⟩ := ih s1 _ g1 g2 hx1 rfl
    refine ⟨s', ?_, k2, k3, k4, k5.trans h3, ?_, k7.trans h2⟩
    · unfold loop; rw [h1]; exact k1
    · intro i hi
      rw [k6 i hi, h5, if_neg hi]

theorem freeNbr_good {s : St} (h : Good s) (hF : Full s) {n : Nat} {x : Nbr} (hx : s.nbr n = some x) (hl : x.list2 = []) :
    Good (freeNbr s n) ∧ Full (freeNbr s n) := by
  have hln : lk s n = some [] := by rw [lk_of hx, hl]; rfl
  have e1 : ∀ i, lk (freeNbr s n) i = if i = n then none else lk s i := by
    intro i; unfold lk freeNbr; simp only
    by_cases hi : i = n
    · rw [if_pos hi, if_pos hi]; rfl
    · rw [if_neg hi, if_neg hi]
  have e2 : ∀ i, bk (freeNbr s n) i = bk s i := fun _ => rfl
  have L : ∀ i m, lk (freeNbr s n) i = some m → i ≠ n ∧ lk s i = some m := by
    intro i m hm
    rw [e1] at hm
    by_cases hi : i = n
    · rw [if_pos hi] at hm; cases hm
    · rw [if_neg hi] at hm; exact ⟨hi, hm⟩
  refine ⟨{
    tw := h.tw, nb := ?_, twd := h.twd, nbd := h.nbd.filter _, lim1 := h.lim1
    lim2 := fun i m hm => h.lim2 i m (L i m hm).2
    lids := fun i m hm => h.lids i m (L i m hm).2
    lidlt := fun i m hm => h.lidlt i m (L i m hm).2
    fwd := fun i m hm => h.fwd i m (L i m hm).2
    bwd := ?_
    nd1 := fun i m hm => h.nd1 i m (L i m hm).2
    nd2 := h.nd2, inj := h.inj }, hF⟩
  · intro i
    show i ∈ s.nbrs.filter (· != n) ↔ _
    rw [List.mem_filter, h.nb, e1]
    by_cases hi : i = n
    · rw [if_pos hi]
      constructor
      · rintro ⟨-, hq⟩; rw [hi, bne_self_eq_false] at hq; cases hq
      · rintro ⟨m, hm⟩; cases hm
    · rw [if_neg hi]
      exact ⟨fun k => k.1, fun k => ⟨k, bne_iff_ne.2 hi⟩⟩
  · intro i y hy k hk
    obtain ⟨l, hl', hi⟩ := h.bwd i y hy k hk
    refine ⟨l, ?_, hi⟩
    rw [e1, if_neg, hl']
    intro hc
    rw [hc, hln] at hl'; cases hl'; cases hi

/-! ## Deleting a two-hop neighbour -/

/-- A neighbour without its entries for one two-hop neighbour. -/
def without (t : Nat) (x : Nbr) : Nbr := { x with list2 := x.list2.filter (fun e => e.two != t) }

theorem loop_delTwoPtr {t : Nat} : ∀ (ks : List Nat) (s : St) (y : Two), s.two t = some y → 1 ≤ y.cnt → ks.Nodup →
    (∀ k ∈ ks, ∃ x, s.nbr k = some x ∧ t ∈ x.list2.map L2.two ∧ (x.list2.map L2.lid).Nodup ∧ (x.list2.map L2.two).Nodup) →
    ∃ s', loop (delTwoPtr t) s ks = some s' ∧ s'.two = s.two ∧ s'.twos = s.twos ∧ s'.nbrs = s.nbrs ∧ s'.next = s.next ∧
      ∀ i, s'.nbr i = if i ∈ ks then (s.nbr i).map (without t) else s.nbr i := by
  intro ks
  induction ks with
  | nil =>
    intro s y _ _ _ _
    refine ⟨s, rfl, rfl, rfl, rfl, rfl, ?_⟩
    intro i; rw [if_neg (by simp)]
  | cons k ks ih =>
    intro s y hy hc hnd hk
    obtain ⟨x, hx, hx1, hx2, hx3⟩ := hk k (List.mem_cons_self ..)
    obtain ⟨e, hfind⟩ : ∃ e, x.list2.find? (fun e => e.two == t) = some e := by
      cases hf : x.list2.find? (fun e => e.two == t) with
      | some e => exact ⟨e, rfl⟩
      | none =>
        obtain ⟨e, he, he'⟩ := List.mem_map.1 hx1
        exact absurd (by simp [he']) (List.find?_eq_none.1 hf e he)
    have het : e.two = t := by simpa using List.find?_some hfind
    have hem := List.mem_of_find?_eq_some hfind
    have hfil : x.list2.filter (fun y => y.lid != e.lid) = x.list2.filter (fun y => y.two != t) := by
      refine List.filter_congr ?_
      intro p hp
      by_cases hq : p.lid = e.lid
      · have := List.inj_on_of_nodup_map hx2 hp hem hq
        rw [this, het, bne_self_eq_false, bne_self_eq_false]
      · have h2 : p.two ≠ t := by
          intro hc'
          have := List.inj_on_of_nodup_map hx3 hp hem (hc'.trans het.symm)
          exact hq (by rw [this])
        rw [bne_iff_ne.2 hq, bne_iff_ne.2 h2]
    obtain ⟨s1, hs1⟩ : ∃ s1, s1 = modNbr s k (fun x => { x with list2 := x.list2.filter (fun y => y.lid != e.lid) }) := ⟨_, rfl⟩
    have hstep : delTwoPtr t s k = some s1 := by
      unfold delTwoPtr; rw [hx]; simp only; rw [hfind]; simp only
      unfold delL2; rw [het, hy]; simp only
      rw [if_neg (by omega), hs1]
    have hn1 : ∀ i, s1.nbr i = if i = k then some (without t x) else s.nbr i := by
      intro i
      rw [hs1]
      unfold modNbr; simp only
      by_cases hi : i = k
      · rw [if_pos hi, if_pos hi, hi, hx, Option.map_some, hfil]; rfl
      · rw [if_neg hi, if_neg hi]
    have ht1 : s1.two = s.two := by rw [hs1]; rfl
    obtain ⟨s', h1, h2, h3, h4, h5, h6⟩ := ih s1 y (by rw [ht1]; exact hy) hc (List.nodup_cons.1 hnd).2 (by
      intro k' hk'
      obtain ⟨x', a1, a2⟩ := hk k' (List.mem_cons_of_mem _ hk')
      refine ⟨x', ?_, a2⟩
      rw [hn1, if_neg, a1]
      intro hc'
      rw [hc'] at hk'
      exact (List.nodup_cons.1 hnd).1 hk')
    refine ⟨s', ?_, h2.trans ht1, h3.trans (by rw [hs1]; rfl), h4.trans (by rw [hs1]; rfl), h5.trans (by rw [hs1]; rfl), ?_⟩
    · unfold loop; rw [hstep]; exact h1
    · intro i
      rw [h6]
      by_cases hi : i ∈ ks
      · have hik : i ≠ k := by rintro rfl; exact (List.nodup_cons.1 hnd).1 hi
        rw [if_pos hi, if_pos (List.mem_cons_of_mem _ hi), hn1, if_neg hik]
      · rw [if_neg hi, hn1]
        by_cases hik : i = k
        · rw [if_pos hik, if_pos (by rw [hik]; exact List.mem_cons_self ..), hik, hx]; rfl
        · rw [if_neg hik, if_neg]
          intro hc'
          rcases List.mem_cons.1 hc' with rfl | hc'
          · exact hik rfl
          · exact hi hc'

theorem delTwo_eq {s : St} (h : Good s) (hF : Full s) {t : Nat} {y : Two} (hy : s.two t = some y) :
    ∃ s', delTwo s t = some s' ∧ (∀ i, s'.two i = if i = t then none else s.two i) ∧ (∀ i, s'.nbr i = (s.nbr i).map (without t)) ∧
      s'.twos = s.twos.filter (· != t) ∧ s'.nbrs = s.nbrs ∧ s'.next = s.next := by
  have hb := bk_of hy
  have hnd := h.nd2 _ _ hb
  have hpos := hF _ _ hb
  have hc : 1 ≤ y.cnt := by
    have h1 : y.cnt = ((y.nb.map NbEnt.nbr).length : Nat) := hnd.2
    have h2 : (y.nb.map NbEnt.nbr) ≠ [] := hpos
    have := List.length_pos_of_ne_nil h2
    omega
  obtain ⟨s1, h1, h2, h3, h4, h5, h6⟩ := loop_delTwoPtr (t := t) (y.nb.map NbEnt.nbr) s y hy hc hnd.1 (by
    intro k hk
    obtain ⟨l, hl, hl'⟩ := h.bwd _ _ hb k hk
    obtain ⟨x, hx, rfl⟩ := of_lk hl
    refine ⟨x, hx, ?_, ?_, ?_⟩
    · rw [List.map_map] at hl'; exact hl'
    · have := h.lids _ _ hl; rw [List.map_map] at this; exact this
    · have := h.nd1 _ _ hl; rw [List.map_map] at this; exact this)
  refine ⟨freeTwo s1 t, ?_, ?_, ?_, ?_, h4, h5⟩
  · unfold delTwo; rw [hy]; simp only; rw [h1]; simp only; rw [h2, hy]
  · intro i; unfold freeTwo; simp only; rw [h2]
  · intro i
    show s1.nbr i = _
    rw [h6]
    by_cases hi : i ∈ y.nb.map NbEnt.nbr
    · rw [if_pos hi]
    · rw [if_neg hi]
      cases hx : s.nbr i with
      | none => rfl
      | some x =>
        rw [Option.map_some]
        unfold without
        rw [List.filter_eq_self.2]
        intro e he
        refine bne_iff_ne.2 ?_
        intro hc'
        obtain ⟨z, hz, hz'⟩ := h.fwd i _ (lk_of hx) (e.lid, e.two) (List.mem_map.2 ⟨e, he, rfl⟩)
        simp only [hc'] at hz
        rw [hb] at hz; cases hz
        exact hi hz'
  · show s1.twos.filter (· != t) = _
    rw [h3]

theorem delTwo_good {s s' : St} (h : Good s) (hF : Full s) {t : Nat} {y : Two} (hy : s.two t = some y) (hs : delTwo s t = some s') :
    Good s' ∧ Full s' := by
  obtain ⟨s'', h0, h1, h2, h3, h4, h5⟩ := delTwo_eq h hF hy
  rw [h0] at hs; cases hs
  have e2 : ∀ i, bk s' i = if i = t then none else bk s i := by
    intro i; unfold bk; rw [h1]
    by_cases hi : i = t
    · rw [if_pos hi, if_pos hi]; rfl
    · rw [if_neg hi, if_neg hi]
  have e1 : ∀ i, lk s' i = (lk s i).map (fun l => l.filter (fun p => p.2 != t)) := by
    intro i; unfold lk; rw [h2]
    cases s.nbr i with
    | none => rfl
    | some x =>
      simp only [Option.map_some, without]
      rw [List.filter_map]; rfl
  have L : ∀ i m, lk s' i = some m → ∃ l, lk s i = some l ∧ m = l.filter (fun p => p.2 != t) := by
    intro i m hm
    rw [e1] at hm
    cases hl : lk s i with
    | none => rw [hl] at hm; cases hm
    | some l => rw [hl] at hm; cases hm; exact ⟨l, rfl, rfl⟩
  have B : ∀ i m, bk s' i = some m → i ≠ t ∧ bk s i = some m := by
    intro i m hm
    rw [e2] at hm
    by_cases hi : i = t
    · rw [if_pos hi] at hm; cases hm
    · rw [if_neg hi] at hm; exact ⟨hi, hm⟩
  refine ⟨{
    tw := ?_, nb := ?_, twd := by rw [h3]; exact h.twd.filter _
    nbd := by rw [h4]; exact h.nbd
    lim1 := fun i m hm => by rw [h5]; exact h.lim1 i m (B i m hm).2
    lim2 := ?_, lids := ?_, lidlt := ?_, fwd := ?_, bwd := ?_, nd1 := ?_
    nd2 := fun i m hm => h.nd2 i m (B i m hm).2
    inj := fun i j a b ha hb => h.inj i j a b (B i a ha).2 (B j b hb).2 }, fun i m hm => hF i m (B i m hm).2⟩
  · intro i
    rw [h3, List.mem_filter, h.tw, e2]
    by_cases hi : i = t
    · rw [if_pos hi]
      constructor
      · rintro ⟨-, hq⟩; rw [hi, bne_self_eq_false] at hq; cases hq
      · rintro ⟨m, hm⟩; cases hm
    · rw [if_neg hi]
      exact ⟨fun k => k.1, fun k => ⟨k, bne_iff_ne.2 hi⟩⟩
  · intro i
    rw [h4, h.nb, e1]
    constructor
    · rintro ⟨l, hl⟩; exact ⟨_, by rw [hl]; rfl⟩
    · rintro ⟨m, hm⟩
      cases hl : lk s i with
      | none => rw [hl] at hm; cases hm
      | some l => exact ⟨l, rfl⟩
  · intro i m hm; obtain ⟨l, hl, -⟩ := L i m hm; rw [h5]; exact h.lim2 _ _ hl
  · intro i m hm; obtain ⟨l, hl, rfl⟩ := L i m hm; exact (h.lids _ _ hl).sublist (List.filter_sublist.map _)
  · intro i m hm p hp; obtain ⟨l, hl, rfl⟩ := L i m hm; rw [h5]; exact h.lidlt _ _ hl p (List.mem_filter.1 hp).1
  · intro i m hm p hp
    obtain ⟨l, hl, rfl⟩ := L i m hm
    obtain ⟨hp1, hp2⟩ := List.mem_filter.1 hp
    obtain ⟨z, hz, hz'⟩ := h.fwd _ _ hl p hp1
    exact ⟨z, by rw [e2, if_neg (bne_iff_ne.1 hp2), hz], hz'⟩
  · intro i m hm k hk
    obtain ⟨hi, hb⟩ := B i m hm
    obtain ⟨l, hl, hl'⟩ := h.bwd _ _ hb k hk
    refine ⟨_, by rw [e1, hl]; rfl, ?_⟩
    obtain ⟨p, hp, hp'⟩ := List.mem_map.1 hl'
    exact List.mem_map.2 ⟨p, List.mem_filter.2 ⟨hp, bne_iff_ne.2 (by rw [hp']; exact hi)⟩, hp'⟩
  · intro i m hm; obtain ⟨l, hl, rfl⟩ := L i m hm; exact (h.nd1 _ _ hl).sublist (List.filter_sublist.map _)

/-! ## The loops over a message -/

/-- Aliases as a well-kept MID set has them: an alias leads to its main address, and a main address is no alias. -/
structure Env.Coherent (env : Env) : Prop where
  back : ∀ m a, a ∈ env.aliases m → env.main a = some m
  flat : ∀ a m, env.main a = some m → env.main m = none

theorem Env.Coherent.mainOf {env : Env} (h : env.Coherent) (a m : Nat) : mainOf env a ∉ env.aliases m := by
  intro hc
  have hb := h.back m _ hc
  unfold TwoHop.mainOf at hb
  cases hm : env.main a with
  | none => rw [hm, Option.getD_none, hm] at hb; cases hb
  | some b => rw [hm, Option.getD_some, h.flat a b hm] at hb; cases hb

/-- What is known about the neighbour after a round: it is still there, and so is everything that was linked to it. -/
theorem pass1_good {env : Env} (henv : env.Coherent) {lq : Bool} {n now vtime : Nat} {s : St} (h : Good s) (hF : Full s)
    {x : Nbr} (hx : s.nbr n = some x) (m : Item) :
    ∃ s', pass1 env lq n now vtime s m = some s' ∧ Good s' ∧ Full s' ∧ ∃ x', s'.nbr n = some x' := by
  unfold pass1
  by_cases ho : env.own m.addr = true
  · rw [if_pos ho]; exact ⟨s, rfl, h, hF, x, hx⟩
  · rw [if_neg ho]
    by_cases hsm : symMpr m = true
    · rw [if_pos hsm, hx]
      simp only
      obtain ⟨r, hr, hr1, hr2⟩ := scan_spec h hx (mainOf env m.addr)
      rw [hr]
      have hkeep : ∀ s', Same s s' → ∃ x', s'.nbr n = some x' := by
        intro s' hs'
        obtain ⟨x', hx', -⟩ := of_lk ((hs'.lk n).trans (lk_of hx))
        exact ⟨x', hx'⟩
      cases r with
      | some e =>
        have k1 := setTimer_same s n e.lid now vtime
        have k2 := k1.trans (resetCost_same (setTimer s n e.lid now vtime) n e.two)
        cases lq with
        | true => exact ⟨_, rfl, h.same k2, hF.same k2, hkeep _ k2⟩
        | false => exact ⟨_, rfl, h.same k1, hF.same k1, hkeep _ k1⟩
      | none =>
        simp only
        have hno := hr2 rfl
        cases hlt : lookupTwo env s (mainOf env m.addr) with
        | none =>
          simp only
          have hna := lookupTwo_none hlt
          have hg := newTwo_good h (a := mainOf env m.addr) (by
            intro i y hy
            obtain ⟨t, ht, rfl⟩ := of_bk hy
            exact hna i ((h.tw i).2 ⟨_, hy⟩) t ht)
          have hb : bk (newTwo s (mainOf env m.addr)) s.next = some (mainOf env m.addr, 0, []) := by
            rw [newTwo_bk, if_pos rfl]
          have hl : lk (newTwo s (mainOf env m.addr)) n = some (x.list2.map (fun e => (e.lid, e.two))) := lk_of hx
          refine ⟨_, rfl, link_good hg hl hb ?_, ?_, ?_⟩
          · intro hc
            obtain ⟨p, hp, hp'⟩ := List.mem_map.1 hc
            obtain ⟨y, hy, -⟩ := h.fwd _ _ (lk_of hx) p hp
            rw [hp'] at hy
            have := h.lim1 _ _ hy
            omega
          · intro i y hy
            rw [link_bk] at hy
            by_cases hi : i = s.next
            · rw [if_pos hi, hi, hb] at hy; cases hy; simp
            · rw [if_neg hi, newTwo_bk, if_neg hi] at hy; exact hF _ _ hy
          · obtain ⟨x', hx', -⟩ := of_lk ((link_lk _ n s.next n).trans (by rw [if_pos rfl, hl]; rfl))
            exact ⟨x', hx'⟩
        | some t =>
          simp only
          obtain ⟨y, hy, hya⟩ := lookupTwo_some hlt
          have haddr : y.addr = mainOf env m.addr := hya.resolve_right (henv.mainOf _ _)
          refine ⟨_, rfl, link_good h (lk_of hx) (bk_of hy) ?_, ?_, ?_⟩
          · intro hc
            rw [List.map_map] at hc
            obtain ⟨e, he, he'⟩ := List.mem_map.1 hc
            have he2 : e.two = t := he'
            exact hno e he y (by rw [he2]; exact hy) haddr
          · intro i z hz
            rw [link_bk] at hz
            by_cases hi : i = t
            · rw [if_pos hi, hi, bk_of hy] at hz; cases hz; simp
            · rw [if_neg hi] at hz; exact hF _ _ hz
          · obtain ⟨x', hx', -⟩ := of_lk ((link_lk s n t n).trans (by rw [if_pos rfl, lk_of hx]; rfl))
            exact ⟨x', hx'⟩
    · rw [if_neg hsm]; exact ⟨s, rfl, h, hF, x, hx⟩

theorem loop_pass1 {env : Env} (henv : env.Coherent) {lq : Bool} {n now vtime : Nat} (ms : List Item) :
    ∀ (s : St), Good s → Full s → (∃ x, s.nbr n = some x) →
    ∃ s', loop (pass1 env lq n now vtime) s ms = some s' ∧ Good s' ∧ Full s' ∧ ∃ x', s'.nbr n = some x' := by
  induction ms with
  | nil => intro s h hF hx; exact ⟨s, rfl, h, hF, hx⟩
  | cons m ms ih =>
    rintro s h hF ⟨x, hx⟩
    obtain ⟨s1, h1, h2, h3, h4⟩ := pass1_good henv (lq := lq) (now := now) (vtime := vtime) h hF hx m
    obtain ⟨s', k⟩ := ih s1 h2 h3 h4
    refine ⟨s', ?_⟩
    unfold loop; rw [h1]; exact k

theorem pass2_same {env : Env} {n c : Nat} {s : St} (h : Good s) {x : Nbr} (hx : s.nbr n = some x) (m : Item) :
    ∃ s', pass2 env n c s m = some s' ∧ Same s s' := by
  unfold pass2
  by_cases ho : env.own m.addr = true
  · rw [if_pos ho]; exact ⟨s, rfl, Same.refl s⟩
  · rw [if_neg ho]
    by_cases hsm : symMpr m = true
    · rw [if_pos hsm, hx]
      simp only
      obtain ⟨r, hr, -, -⟩ := scan_spec h hx m.addr
      rw [hr]
      cases r with
      | none => exact ⟨s, rfl, Same.refl s⟩
      | some e =>
        refine ⟨_, rfl, modTwo_same _ _ _ ?_⟩
        intro t
        refine ⟨rfl, rfl, ?_⟩
        simp only [List.map_map]
        refine List.map_congr_left ?_
        intro b _
        simp only [Function.comp]
        split
        · rw [better_nbr]
        · rfl
    · rw [if_neg hsm]; exact ⟨s, rfl, Same.refl s⟩

theorem loop_pass2 {env : Env} {n c : Nat} (ms : List Item) :
    ∀ (s : St), Good s → (∃ x, s.nbr n = some x) → ∃ s', loop (pass2 env n c) s ms = some s' ∧ Same s s' := by
  induction ms with
  | nil => intro s _ _; exact ⟨s, rfl, Same.refl s⟩
  | cons m ms ih =>
    rintro s h ⟨x, hx⟩
    obtain ⟨s1, h1, h2⟩ := pass2_same (env := env) (c := c) h hx m
    obtain ⟨x', hx', -⟩ := of_lk ((h2.lk n).trans (lk_of hx))
    obtain ⟨s', k1, k2⟩ := ih s1 (h.same h2) ⟨x', hx'⟩
    refine ⟨s', ?_, h2.trans k2⟩
    unfold loop; rw [h1]; exact k1

theorem hello_good {env : Env} (henv : env.Coherent) {lq : Bool} {first : Option Nat} {n now vtime will : Nat} {s : St} (h : Good s)
    (hF : Full s) {x : Nbr} (hx : s.nbr n = some x) (ms : List Item) :
    ∃ s', hello env lq first n now vtime will s ms = some s' ∧ Good s' ∧ Full s' ∧ ∃ x', s'.nbr n = some x' := by
  unfold hello
  rw [hx]
  simp only
  have k := modNbr_same s n (fun x => { x with will := will }) (fun _ => rfl)
  have hx1 : (modNbr s n (fun x => { x with will := will })).nbr n = some { x with will := will } := by
    unfold modNbr; simp [hx]
  by_cases hw : will = 0
  · rw [if_pos hw]; exact ⟨_, rfl, h.same k, hF.same k, _, hx1⟩
  · rw [if_neg hw]
    unfold processNbrs
    obtain ⟨s1, h1, h2, h3, h4⟩ := loop_pass1 henv (lq := lq) (now := now) (vtime := vtime) ms _ (h.same k) (hF.same k) ⟨_, hx1⟩
    rw [h1]
    simp only
    cases lq with
    | false => exact ⟨s1, rfl, h2, h3, h4⟩
    | true =>
      cases first with
      | none => exact ⟨s1, rfl, h2, h3, h4⟩
      | some c =>
        obtain ⟨s', k1, k2⟩ := loop_pass2 (env := env) (c := c) (ms.map (rewritten env)) s1 h2 h4
        obtain ⟨x', hx'⟩ := h4
        obtain ⟨x'', hx'', -⟩ := of_lk ((k2.lk n).trans (lk_of hx'))
        exact ⟨s', k1, h2.same k2, h3.same k2, x'', hx''⟩

end Verif.TwoHop
