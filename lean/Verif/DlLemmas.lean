import Verif.DlModel
/-
Helper lemmas about the doubly linked list of the p2pd plugin.
-/
namespace Verif.Dl

variable {α : Type}

/-- address of the first node, or `n` if there is none -/
def fa : List (Nat × α) → Option Nat → Option Nat
  | [], n => n
  | q :: _, _ => some q.1

/-- address of the last node, or `p` if there is none -/
def la : List (Nat × α) → Option Nat → Option Nat
  | [], p => p
  | q :: r, _ => la r (some q.1)

/-- `l` is a chain of nodes with `p` before and `n` behind it -/
def Seg (h : Nat → Option (Node α)) : Option Nat → List (Nat × α) → Option Nat → Prop
  | _, [], _ => True
  | p, q :: r, n => h q.1 = some ⟨p, fa r n, q.2⟩ ∧ Seg h (some q.1) r n

theorem fa_append (l m : List (Nat × α)) (n : Option Nat) : fa (l ++ m) n = fa l (fa m n) := by
  cases l <;> rfl

theorem la_append (l m : List (Nat × α)) (p : Option Nat) : la (l ++ m) p = la m (la l p) := by
  induction l generalizing p with
  | nil => rfl
  | cons q r ih => simp only [List.cons_append, la]; exact ih _

theorem seg_append (h : Nat → Option (Node α)) (l m : List (Nat × α)) (p n : Option Nat) :
    Seg h p (l ++ m) n ↔ Seg h p l (fa m n) ∧ Seg h (la l p) m n := by
  induction l generalizing p with
  | nil => simp [Seg, la]
  | cons q r ih =>
    simp only [List.cons_append, Seg, la, fa_append, ih, and_assoc]

theorem upd_ne (h : Nat → Option (Node α)) (a x : Nat) (v : Option (Node α)) (hx : x ≠ a) :
    upd h a v x = h x := by
  unfold upd; rw [if_neg hx]

theorem upd_eq (h : Nat → Option (Node α)) (a : Nat) (v : Option (Node α)) : upd h a v a = v := by
  unfold upd; rw [if_pos rfl]

theorem upd_self (h : Nat → Option (Node α)) (a : Nat) (v : Option (Node α)) (hv : h a = v) :
    upd h a v = h := by
  funext x
  unfold upd
  by_cases hx : x = a
  · rw [if_pos hx, hx, hv]
  · rw [if_neg hx]

theorem seg_upd (h : Nat → Option (Node α)) (a : Nat) (v : Option (Node α)) (l : List (Nat × α))
    (p n : Option Nat) (ha : a ∉ l.map Prod.fst) : Seg (upd h a v) p l n ↔ Seg h p l n := by
  induction l generalizing p with
  | nil => simp [Seg]
  | cons q r ih =>
    simp only [List.map_cons, List.mem_cons, not_or] at ha
    simp only [Seg]
    rw [upd_ne _ _ _ _ (fun hh => ha.1 hh.symm), ih _ ha.2]

theorem snoc_of_ne (l : List (Nat × α)) (h : l ≠ []) : ∃ m q, l = m ++ [q] := by
  rcases List.eq_nil_or_concat l with h' | ⟨m, q, h'⟩
  · exact absurd h' h
  · exact ⟨m, q, by simpa using h'⟩

/-- What the heap and the two ends have to be for the list to be `l`. -/
structure Repr (d : DL α) (l : List (Nat × α)) : Prop where
  nd : (l.map Prod.fst).Nodup
  seg : Seg d.heap none l none
  head : d.head = fa l none
  tail : l ≠ [] → d.tail = la l none
  cov : ∀ a, d.heap a ≠ none → a ∈ l.map Prod.fst
  lt : ∀ a ∈ l.map Prod.fst, a < d.fresh
  len : l.length ≤ d.fresh

theorem repr_empty : Repr (empty α) [] := by
  refine ⟨by simp, trivial, rfl, fun h => absurd rfl h, ?_, by simp, by simp [empty]⟩
  intro a ha
  exact absurd rfl ha

theorem repr_append {d : DL α} {l : List (Nat × α)} (hr : Repr d l) (x : α) :
    ∃ e, append d x = some e ∧ Repr e (l ++ [(d.fresh, x)]) ∧ e.fresh = d.fresh + 1 := by
  have hfl : d.fresh ∉ l.map Prod.fst := fun hh => Nat.lt_irrefl _ (hr.lt _ hh)
  have hnd : ((l ++ [(d.fresh, x)]).map Prod.fst).Nodup := by
    rw [List.map_append, List.nodup_append]
    refine ⟨hr.nd, by simp, ?_⟩
    intro a ha b hb
    simp at hb
    subst hb
    exact fun hh => hfl (hh ▸ ha)
  have hlt : ∀ a ∈ (l ++ [(d.fresh, x)]).map Prod.fst, a < d.fresh + 1 := by
    intro a ha
    rw [List.map_append] at ha
    rcases List.mem_append.1 ha with ha | ha
    · exact Nat.lt_succ_of_lt (hr.lt a ha)
    · simp at ha; omega
  have hlen : (l ++ [(d.fresh, x)]).length ≤ d.fresh + 1 := by
    have := hr.len
    simp; omega
  rcases List.eq_nil_or_concat l with rfl | ⟨m, q, hm⟩
  · have hh : d.head = none := hr.head
    refine ⟨⟨some d.fresh, some d.fresh, upd d.heap d.fresh (some ⟨none, none, x⟩), d.fresh + 1⟩,
      by unfold append; rw [hh], ⟨hnd, ?_, rfl, fun _ => rfl, ?_, hlt, hlen⟩, rfl⟩
    · exact ⟨upd_eq _ _ _, trivial⟩
    · intro a ha
      by_cases hx : a = d.fresh
      · simp [hx]
      · simp only [upd_ne _ _ _ _ hx] at ha
        have := hr.cov a ha
        simp at this
  · have hm' : l = m ++ [q] := by simpa using hm
    clear hm
    subst hm'
    have hqf : q.1 ≠ d.fresh := fun hh => hfl (by rw [← hh]; simp)
    have hq : d.heap q.1 = some ⟨la m none, none, q.2⟩ := by
      have := ((seg_append d.heap m [q] none none).1 hr.seg).2
      exact this.1
    have ht : d.tail = some q.1 := by
      rw [hr.tail (by simp), la_append]; rfl
    obtain ⟨h0, hh0⟩ : ∃ h0, d.head = some h0 := by
      rw [hr.head]
      cases m with
      | nil => exact ⟨_, rfl⟩
      | cons r s => exact ⟨_, rfl⟩
    refine ⟨⟨some h0, some d.fresh,
      upd (upd d.heap d.fresh (some ⟨some q.1, none, x⟩)) q.1 (some ⟨la m none, some d.fresh, q.2⟩),
      d.fresh + 1⟩, ?_, ⟨hnd, ?_, ?_, ?_, ?_, hlt, hlen⟩, rfl⟩
    · unfold append setNext
      rw [hh0, ht]
      simp only []
      rw [upd_ne _ _ _ _ hqf, hq]
      rfl
    · simp only []
      have hnd' := hr.nd
      rw [List.map_append, List.nodup_append] at hnd'
      have hqm : q.1 ∉ m.map Prod.fst := fun hh => hnd'.2.2 _ hh _ (by simp) rfl
      have hfm : d.fresh ∉ m.map Prod.fst := fun hh => hfl (by rw [List.map_append]; exact List.mem_append.2 (Or.inl hh))
      rw [List.append_assoc, seg_append, seg_upd _ _ _ _ _ _ hqm, seg_upd _ _ _ _ _ _ hfm]
      refine ⟨((seg_append d.heap m [q] none none).1 hr.seg).1, ?_, ?_, trivial⟩
      · rw [upd_eq]; rfl
      · rw [upd_ne _ _ _ _ (Ne.symm hqf), upd_eq]; rfl
    · simp only []
      rw [fa_append, ← hh0, hr.head]
      cases m <;> rfl
    · intro _
      simp only []
      rw [la_append]
      rfl
    · intro a ha
      simp only [] at ha
      by_cases h1 : a = q.1
      · simp [h1]
      · rw [upd_ne _ _ _ _ h1] at ha
        by_cases h2 : a = d.fresh
        · simp [h2]
        · rw [upd_ne _ _ _ _ h2] at ha
          have := hr.cov a ha
          rw [List.map_append]
          exact List.mem_append.2 (Or.inl this)

theorem find_seg (h : Nat → Option (Node α)) (a : Nat) (l : List (Nat × α)) :
    ∀ (p : Option Nat) (fuel : Nat), l.length < fuel → Seg h p l none →
    find h a fuel (fa l none) = some (decide (a ∈ l.map Prod.fst)) := by
  induction l with
  | nil =>
    intro p fuel _ _
    show find h a fuel none = _
    unfold find
    cases fuel <;> simp
  | cons q r ih =>
    intro p fuel hf hs
    cases fuel with
    | zero => simp at hf
    | succ fuel =>
      show find h a (fuel + 1) (some q.1) = _
      unfold find
      by_cases hq : q.1 = a
      · rw [if_pos hq]; simp [hq]
      · rw [if_neg hq, hs.1]
        simp only []
        rw [ih (some q.1) fuel (by simp at hf; omega) hs.2]
        have : a ≠ q.1 := fun hh => hq hh.symm
        simp [this]

theorem fixHead_noop {d : DL α} (hd : ∀ a n, d.head = some a → d.heap a = some n → n.prev = none)
    (ha : ∀ a, d.head = some a → d.heap a ≠ none) : fixHead d = some d := by
  unfold fixHead
  cases hh : d.head with
  | none => rfl
  | some a =>
    simp only []
    cases hn : d.heap a with
    | none => exact absurd hn (ha a hh)
    | some n =>
      have hp := hd a n hh hn
      unfold setPrev
      rw [hn]
      simp only [Option.map_some]
      have e : (⟨none, n.next, n.data⟩ : Node α) = n := by
        cases n; simp at hp; simp [hp]
      rw [e, upd_self _ _ _ hn]
      have g : (⟨some a, d.tail, d.heap, d.fresh⟩ : DL α) = d := by rw [← hh]
      exact congrArg some g

theorem fixTail_noop {d : DL α} (hd : ∀ a n, d.tail = some a → d.heap a = some n → n.next = none)
    (ha : ∀ a, d.tail = some a → d.heap a ≠ none) : fixTail d = some d := by
  unfold fixTail
  cases hh : d.tail with
  | none => rfl
  | some a =>
    simp only []
    cases hn : d.heap a with
    | none => exact absurd hn (ha a hh)
    | some n =>
      have hp := hd a n hh hn
      unfold setNext
      rw [hn]
      simp only [Option.map_some]
      have e : (⟨n.prev, none, n.data⟩ : Node α) = n := by
        cases n; simp at hp; simp [hp]
      rw [e, upd_self _ _ _ hn]
      have g : (⟨d.head, some a, d.heap, d.fresh⟩ : DL α) = d := by rw [← hh]
      exact congrArg some g

/-- The first node of a chain. -/
theorem seg_first {h : Nat → Option (Node α)} {p n : Option Nat} {l : List (Nat × α)}
    (hs : Seg h p l n) (a : Nat) (hne : l ≠ []) (ha : fa l none = some a) :
    ∃ nd, h a = some nd ∧ nd.prev = p := by
  cases l with
  | nil => exact absurd rfl hne
  | cons q r =>
    have : q.1 = a := by simpa [fa] using ha
    subst this
    exact ⟨_, hs.1, rfl⟩

/-- The last node of a chain. -/
theorem seg_last {h : Nat → Option (Node α)} {p n : Option Nat} {m : List (Nat × α)} {q : Nat × α}
    (hs : Seg h p (m ++ [q]) n) : h q.1 = some ⟨la m p, n, q.2⟩ :=
  ((seg_append h m [q] p n).1 hs).2.1

theorem seg_noops {d : DL α} {l : List (Nat × α)} (hs : Seg d.heap none l none) (hne : l ≠ [])
    (hh : d.head = fa l none) (ht : d.tail = la l none) :
    fixHead d = some d ∧ fixTail d = some d := by
  constructor
  · apply fixHead_noop
    · intro a n ha hn
      obtain ⟨nd, h1, h2⟩ := seg_first hs a hne (by rw [← hh]; exact ha)
      rw [h1] at hn
      cases hn
      exact h2
    · intro a ha hn
      obtain ⟨nd, h1, h2⟩ := seg_first hs a hne (by rw [← hh]; exact ha)
      rw [h1] at hn
      cases hn
  · obtain ⟨m, q, rfl⟩ := snoc_of_ne l hne
    have hq := seg_last hs
    have ht' : d.tail = some q.1 := by rw [ht, la_append]; rfl
    apply fixTail_noop
    · intro a n ha hn
      rw [ht'] at ha
      cases ha
      rw [hq] at hn
      cases hn
      rfl
    · intro a ha hn
      rw [ht'] at ha
      cases ha
      rw [hq] at hn
      cases hn

/-- After the last change, the chain without the removed node, and the removed
node still there, `release` leaves the shorter list. -/
theorem release_repr {d d0 : DL α} {l1 l2 : List (Nat × α)} {a : Nat} {x : α}
    (hr : Repr d0 (l1 ++ (a, x) :: l2)) (hf : d.fresh = d0.fresh)
    (hs : Seg d.heap none (l1 ++ l2) none) (hh : d.head = fa (l1 ++ l2) none)
    (ht : l1 ++ l2 ≠ [] → d.tail = la (l1 ++ l2) none) (ha : d.heap a ≠ none)
    (hc : ∀ b, d.heap b ≠ none → d0.heap b ≠ none) :
    ∃ e, release d a = some e ∧ Repr e (l1 ++ l2) ∧ e.fresh = d0.fresh := by
  have hnd := hr.nd
  rw [List.map_append, List.map_cons, List.nodup_append] at hnd
  have hnd2 := List.nodup_cons.1 hnd.2.1
  have ha1 : a ∉ l1.map Prod.fst := fun hm => hnd.2.2 _ hm _ (List.mem_cons_self ..) rfl
  have ha2 : a ∉ l2.map Prod.fst := hnd2.1
  have ha12 : a ∉ (l1 ++ l2).map Prod.fst := by
    rw [List.map_append]
    intro hm
    rcases List.mem_append.1 hm with hm | hm
    · exact ha1 hm
    · exact ha2 hm
  refine ⟨{ d with heap := upd d.heap a none }, ?_, ⟨?_, ?_, hh, ht, ?_, ?_, ?_⟩, hf⟩
  · unfold release
    cases hx : d.heap a with
    | none => exact absurd hx ha
    | some n => rfl
  · rw [List.map_append, List.nodup_append]
    exact ⟨hnd.1, hnd2.2, fun b hb c hc' => hnd.2.2 b hb c (List.mem_cons_of_mem _ hc')⟩
  · exact (seg_upd _ _ _ _ _ _ ha12).2 hs
  · intro b hb
    simp only [] at hb
    by_cases hx : b = a
    · rw [hx, upd_eq] at hb; exact absurd rfl hb
    · rw [upd_ne _ _ _ _ hx] at hb
      have := hr.cov b (hc b hb)
      rw [List.map_append, List.map_cons] at this
      rw [List.map_append]
      rcases List.mem_append.1 this with h | h
      · exact List.mem_append.2 (Or.inl h)
      · rcases List.mem_cons.1 h with h | h
        · exact absurd h hx
        · exact List.mem_append.2 (Or.inr h)
  · intro b hb
    show b < d.fresh
    rw [hf]
    apply hr.lt
    rw [List.map_append] at hb
    rw [List.map_append, List.map_cons]
    rcases List.mem_append.1 hb with h | h
    · exact List.mem_append.2 (Or.inl h)
    · exact List.mem_append.2 (Or.inr (List.mem_cons_of_mem _ h))
  · show (l1 ++ l2).length ≤ d.fresh
    rw [hf]
    have := hr.len
    simp at this ⊢
    omega

theorem repr_remove {d : DL α} {l1 l2 : List (Nat × α)} {a : Nat} {x : α}
    (hr : Repr d (l1 ++ (a, x) :: l2)) :
    ∃ e, remove d a = some e ∧ Repr e (l1 ++ l2) ∧ e.fresh = d.fresh := by
  have hfind : find d.heap a (d.fresh + 1) d.head = some true := by
    rw [hr.head, find_seg d.heap a _ none (d.fresh + 1) (by have := hr.len; omega) hr.seg]
    simp
  have hseg := (seg_append _ _ _ _ _).1 hr.seg
  have hs1 : Seg d.heap none l1 (some a) := hseg.1
  have hsa : d.heap a = some ⟨la l1 none, fa l2 none, x⟩ := hseg.2.1
  have hs2 : Seg d.heap (some a) l2 none := hseg.2.2
  have hnd := hr.nd
  rw [List.map_append, List.map_cons, List.nodup_append] at hnd
  have hnd2 := List.nodup_cons.1 hnd.2.1
  have ha1 : a ∉ l1.map Prod.fst := fun hm => hnd.2.2 _ hm _ (List.mem_cons_self ..) rfl
  have ha2 : a ∉ l2.map Prod.fst := hnd2.1
  have h12 : ∀ b, b ∈ l1.map Prod.fst → b ∉ l2.map Prod.fst :=
    fun b hb hb' => hnd.2.2 b hb b (List.mem_cons_of_mem _ hb') rfl
  unfold remove
  rw [hfind]
  simp only []
  rw [hsa]
  simp only []
  unfold unlink
  have htail : d.tail = la l2 (some a) := by
    rw [hr.tail (by simp), la_append]
    rfl
  by_cases hl1 : l1 = []
  · subst hl1
    have hhead : d.head = some a := hr.head
    rw [if_pos hhead]
    simp only [Option.bind_some]
    cases l2 with
    | nil =>
      have h1 : fixHead ({ d with head := fa ([] : List (Nat × α)) none } : DL α) =
          some { d with head := none } := rfl
      rw [h1]
      simp only [Option.bind_some]
      have ht' : d.tail = some a := htail
      have h2 : fixTail ({ d with head := none } : DL α) = some { d with head := none } := by
        apply fixTail_noop
        · intro b n hb hn
          simp only [] at hb hn
          rw [ht'] at hb
          cases hb
          rw [hsa] at hn
          cases hn
          rfl
        · intro b hb
          simp only [] at hb ⊢
          rw [ht'] at hb
          cases hb
          rw [hsa]
          simp
      rw [h2]
      simp only [Option.bind_some]
      exact release_repr (d := { d with head := none }) hr rfl trivial rfl (fun hh => absurd rfl hh)
        (by simp only []; rw [hsa]; simp) (fun b hb => hb)
    | cons q r =>
      have hq := hs2.1
      have hqa : q.1 ≠ a := fun hh => ha2 (by rw [← hh]; simp)
      have hqr : q.1 ∉ r.map Prod.fst := (List.nodup_cons.1 hnd2.2).1
      have h1 : fixHead ({ d with head := fa (q :: r) none } : DL α) =
          some { d with head := some q.1, heap := upd d.heap q.1 (some ⟨none, fa r none, q.2⟩) } := by
        unfold fixHead setPrev
        simp only [fa, hq]
        rfl
      rw [h1]
      simp only [Option.bind_some]
      obtain ⟨d2, hd2⟩ : ∃ d2 : DL α, d2 =
        { d with head := some q.1, heap := upd d.heap q.1 (some ⟨none, fa r none, q.2⟩) } := ⟨_, rfl⟩
      rw [← hd2]
      have hs : Seg d2.heap none (q :: r) none := by
        rw [hd2]
        exact ⟨upd_eq _ _ _, (seg_upd _ _ _ _ _ _ hqr).2 hs2.2⟩
      have ht2 : d2.tail = la (q :: r) none := by
        rw [hd2]
        exact htail
      rw [(seg_noops hs (by simp) (by rw [hd2]; rfl) ht2).2]
      simp only [Option.bind_some]
      refine release_repr (d := d2) hr (by rw [hd2]) hs (by rw [hd2]; rfl) (fun _ => ht2) ?_ ?_
      · rw [hd2]
        simp only []
        rw [upd_ne _ _ _ _ (Ne.symm hqa), hsa]
        simp
      · intro b hb
        rw [hd2] at hb
        simp only [] at hb
        by_cases hx : b = q.1
        · rw [hx, hq]; simp
        · rw [upd_ne _ _ _ _ hx] at hb; exact hb
  · have hhead : d.head = fa l1 none := by
      rw [hr.head]
      cases l1 with
      | nil => exact absurd rfl hl1
      | cons => rfl
    have hhne : d.head ≠ some a := by
      rw [hhead]
      cases l1 with
      | nil => exact absurd rfl hl1
      | cons q r =>
        intro hh
        have : q.1 = a := by simpa [fa] using hh
        exact ha1 (by rw [← this]; simp)
    rw [if_neg hhne]
    obtain ⟨m, p, hmp⟩ := snoc_of_ne l1 hl1
    have hp : d.heap p.1 = some ⟨la m none, some a, p.2⟩ := by
      rw [hmp] at hs1
      exact seg_last hs1
    have hpm : p.1 ∉ m.map Prod.fst := by
      have := hnd.1
      rw [hmp, List.map_append, List.nodup_append] at this
      exact fun hh => this.2.2 _ hh _ (by simp) rfl
    have hp1 : p.1 ∈ l1.map Prod.fst := by rw [hmp]; simp
    have hpa : p.1 ≠ a := fun hh => ha1 (by rw [← hh]; exact hp1)
    have hla : la l1 none = some p.1 := by rw [hmp, la_append]; rfl
    cases l2 with
    | nil =>
      have ht' : d.tail = some a := htail
      rw [if_pos ht']
      simp only [Option.bind_some]
      have hs1' : Seg d.heap none l1 (some a) := hs1
      have h1 : fixHead ({ d with tail := la l1 none } : DL α) = some { d with tail := la l1 none } := by
        apply fixHead_noop
        · intro b n hb hn
          simp only [] at hb hn
          obtain ⟨nd, g1, g2⟩ := seg_first hs1' b hl1 (by rw [← hhead]; exact hb)
          rw [g1] at hn
          cases hn
          exact g2
        · intro b hb
          simp only [] at hb ⊢
          obtain ⟨nd, g1, g2⟩ := seg_first hs1' b hl1 (by rw [← hhead]; exact hb)
          rw [g1]
          simp
      rw [h1]
      simp only [Option.bind_some]
      have h2 : fixTail ({ d with tail := la l1 none } : DL α) =
          some { d with tail := some p.1, heap := upd d.heap p.1 (some ⟨la m none, none, p.2⟩) } := by
        unfold fixTail setNext
        simp only [hla, hp]
        rfl
      rw [h2]
      simp only [Option.bind_some]
      have hs : Seg (upd d.heap p.1 (some ⟨la m none, none, p.2⟩)) none l1 none := by
        rw [hmp, seg_append, seg_upd _ _ _ _ _ _ hpm]
        rw [hmp, seg_append] at hs1'
        exact ⟨hs1'.1, upd_eq _ _ _, trivial⟩
      refine release_repr
        (d := { d with tail := some p.1, heap := upd d.heap p.1 (some ⟨la m none, none, p.2⟩) }) hr
        rfl ?_ ?_ ?_ ?_ ?_
      · rw [List.append_nil]; exact hs
      · rw [List.append_nil]; exact hhead
      · intro _; rw [List.append_nil]; exact hla.symm
      · simp only []
        rw [upd_ne _ _ _ _ (Ne.symm hpa), hsa]
        simp
      · intro b hb
        simp only [] at hb
        by_cases hx : b = p.1
        · rw [hx, hp]; simp
        · rw [upd_ne _ _ _ _ hx] at hb; exact hb
    | cons q r =>
      have hq : d.heap q.1 = some ⟨some a, fa r none, q.2⟩ := hs2.1
      have hqa : q.1 ≠ a := fun hh => ha2 (by rw [← hh]; simp)
      have hqr : q.1 ∉ r.map Prod.fst := (List.nodup_cons.1 hnd2.2).1
      have hpq : p.1 ≠ q.1 := fun hh => h12 _ hp1 (by rw [hh]; simp)
      have hql1 : q.1 ∉ l1.map Prod.fst := fun hh => h12 _ hh (by simp)
      have hpr : p.1 ∉ r.map Prod.fst := fun hh => h12 _ hp1 (by
        rw [List.map_cons]; exact List.mem_cons_of_mem _ hh)
      have htne : d.tail ≠ some a := by
        rw [htail]
        obtain ⟨m', q', hm'⟩ := snoc_of_ne (q :: r) (by simp)
        rw [hm', la_append]
        intro hh
        have : q'.1 = a := by simpa [la] using hh
        exact ha2 (by rw [hm', ← this]; simp)
      rw [if_neg htne, hla]
      simp only [fa]
      obtain ⟨h1, hh1⟩ : ∃ h1, h1 = upd d.heap p.1 (some ⟨la m none, some q.1, p.2⟩) := ⟨_, rfl⟩
      obtain ⟨h2, hh2⟩ : ∃ h2, h2 = upd h1 q.1 (some ⟨some p.1, fa r none, q.2⟩) := ⟨_, rfl⟩
      have e1 : setNext d.heap p.1 (some q.1) = some h1 := by
        unfold setNext; rw [hp, hh1]; rfl
      have e2 : setPrev h1 q.1 (some p.1) = some h2 := by
        unfold setPrev
        rw [hh1, upd_ne _ _ _ _ (Ne.symm hpq), hq, hh2, hh1]
        rfl
      rw [e1]
      simp only [Option.bind_some]
      rw [e2]
      simp only [Option.map_some, Option.bind_some]
      have hs : Seg h2 none (l1 ++ q :: r) none := by
        rw [seg_append]
        refine ⟨?_, ?_, ?_⟩
        · rw [hh2, seg_upd _ _ _ _ _ _ hql1, hh1, hmp, seg_append, seg_upd _ _ _ _ _ _ hpm]
          rw [hmp, seg_append] at hs1
          exact ⟨hs1.1, upd_eq _ _ _, trivial⟩
        · rw [hh2, upd_eq, hla]
        · rw [hh2, seg_upd _ _ _ _ _ _ hqr, hh1, seg_upd _ _ _ _ _ _ hpr]
          exact hs2.2
      have hhd : ({ d with heap := h2 } : DL α).head = fa (l1 ++ q :: r) none := by
        simp only []
        rw [hhead, fa_append]
        cases l1 with
        | nil => exact absurd rfl hl1
        | cons => rfl
      have htl : ({ d with heap := h2 } : DL α).tail = la (l1 ++ q :: r) none := by
        simp only []
        rw [htail, la_append]
        rfl
      have hno := seg_noops (d := { d with heap := h2 }) hs (by simp) hhd htl
      rw [hno.1]
      simp only [Option.bind_some]
      rw [hno.2]
      simp only [Option.bind_some]
      refine release_repr (d := { d with heap := h2 }) hr rfl hs hhd (fun _ => htl) ?_ ?_
      · simp only []
        rw [hh2, upd_ne _ _ _ _ (Ne.symm hqa), hh1, upd_ne _ _ _ _ (Ne.symm hpa), hsa]
        simp
      · intro b hb
        simp only [] at hb
        by_cases hx : b = q.1
        · rw [hx, hq]; simp
        · rw [hh2, upd_ne _ _ _ _ hx, hh1] at hb
          by_cases hy : b = p.1
          · rw [hy, hp]; simp
          · rw [upd_ne _ _ _ _ hy] at hb; exact hb

theorem repr_remove_absent {d : DL α} {l : List (Nat × α)} (hr : Repr d l) {a : Nat}
    (ha : a ∉ l.map Prod.fst) : remove d a = some d := by
  unfold remove
  rw [hr.head, find_seg d.heap a _ none (d.fresh + 1) (by have := hr.len; omega) hr.seg]
  simp [ha]

theorem repr_clear : ∀ (fuel : Nat) (d : DL α) (l : List (Nat × α)), Repr d l → l.length ≤ fuel →
    ∃ e, clear fuel d = some e ∧ Repr e [] ∧ e.fresh = d.fresh := by
  intro fuel
  induction fuel with
  | zero =>
    intro d l hr hl
    have : l = [] := List.eq_nil_of_length_eq_zero (by omega)
    subst this
    refine ⟨d, ?_, hr, rfl⟩
    have hh : d.head = none := hr.head
    unfold clear
    rw [hh]
  | succ fuel ih =>
    intro d l hr hl
    cases l with
    | nil =>
      refine ⟨d, ?_, hr, rfl⟩
      have hh : d.head = none := hr.head
      unfold clear
      rw [hh]
    | cons q r =>
      have hh : d.head = some q.1 := hr.head
      obtain ⟨e, he, hr', hf⟩ := repr_remove (l1 := []) (a := q.1) (x := q.2) (l2 := r) hr
      obtain ⟨g, hg, hrg, hfg⟩ := ih e r hr' (by simp at hl; omega)
      refine ⟨g, ?_, hrg, by rw [hfg, hf]⟩
      unfold clear
      rw [hh]
      simp only []
      rw [he]
      exact hg

theorem forward_seg (h : Nat → Option (Node α)) (l : List (Nat × α)) :
    ∀ (p : Option Nat) (fuel : Nat), l.length < fuel → Seg h p l none →
    forward h fuel (fa l none) = some l := by
  induction l with
  | nil =>
    intro p fuel _ _
    show forward h fuel none = _
    unfold forward
    cases fuel <;> rfl
  | cons q r ih =>
    intro p fuel hf hs
    cases fuel with
    | zero => simp at hf
    | succ fuel =>
      show forward h (fuel + 1) (some q.1) = _
      unfold forward
      rw [hs.1]
      simp only []
      rw [ih (some q.1) fuel (by simp at hf; omega) hs.2]
      rfl

theorem backward_seg (h : Nat → Option (Node α)) : ∀ (n : Nat) (l : List (Nat × α)) (x : Option Nat)
    (fuel : Nat), l.length = n → l.length < fuel → Seg h none l x →
    backward h fuel (la l none) = some l.reverse := by
  intro n
  induction n with
  | zero =>
    intro l x fuel hn hf hs
    have : l = [] := List.eq_nil_of_length_eq_zero hn
    subst this
    show backward h fuel none = _
    unfold backward
    cases fuel <;> rfl
  | succ n ih =>
    intro l x fuel hn hf hs
    obtain ⟨m, q, rfl⟩ := snoc_of_ne l (by intro hh; rw [hh] at hn; cases hn)
    cases fuel with
    | zero => simp at hf
    | succ fuel =>
      have hq := seg_last hs
      have hs' := ((seg_append _ _ _ _ _).1 hs).1
      rw [la_append]
      show backward h (fuel + 1) (some q.1) = _
      unfold backward
      rw [hq]
      simp only []
      rw [ih m _ fuel (by simp at hn; omega) (by simp at hf; omega) hs']
      simp

/-! ### The filter -/

variable {κ : Type}

theorem repr_age (timeout now : Nat) : ∀ (fuel : Nat) (rest kept : List (Nat × Dup κ)) (d : DL (Dup κ)),
    Repr d (kept ++ rest) → rest.length < fuel →
    ∃ e, age timeout now fuel (fa rest none) d = some e ∧ e.fresh = d.fresh ∧
      Repr e (kept ++ rest.filter (fun q => !decide (q.2.time + timeout < now))) := by
  intro fuel
  induction fuel with
  | zero => intro rest kept d _ h; omega
  | succ fuel ih =>
    intro rest kept d hr hf
    cases rest with
    | nil => exact ⟨d, by show age timeout now (fuel + 1) none d = _; unfold age; rfl, rfl, by simpa using hr⟩
    | cons q r =>
      have hs := ((seg_append _ _ _ _ _).1 hr.seg).2
      have hq : d.heap q.1 = some ⟨la kept none, fa r none, q.2⟩ := hs.1
      show ∃ e, age timeout now (fuel + 1) (some q.1) d = some e ∧ _
      unfold age
      rw [hq]
      simp only []
      by_cases ho : q.2.time + timeout < now
      · rw [if_pos ho]
        obtain ⟨e, he, hr', hfe⟩ := repr_remove (l1 := kept) (a := q.1) (x := q.2) (l2 := r) hr
        rw [he]
        simp only [Option.bind_some]
        obtain ⟨g, hg, hfg, hrg⟩ := ih r kept e hr' (by simp at hf; omega)
        refine ⟨g, hg, by rw [hfg, hfe], ?_⟩
        rw [List.filter_cons_of_neg (by simp [ho])]
        exact hrg
      · rw [if_neg ho]
        obtain ⟨g, hg, hfg, hrg⟩ := ih r (kept ++ [q]) d (by simpa using hr) (by simp at hf; omega)
        refine ⟨g, hg, hfg, ?_⟩
        rw [List.filter_cons_of_pos (by simp [ho])]
        simpa using hrg

theorem lookup_seg [DecidableEq κ] (h : Nat → Option (Node (Dup κ))) (k : κ) (l : List (Nat × Dup κ)) :
    ∀ (p : Option Nat) (fuel : Nat), l.length < fuel → Seg h p l none →
    lookup h k fuel (fa l none) = some (l.any (fun q => decide (q.2.key = k))) := by
  induction l with
  | nil =>
    intro p fuel _ _
    show lookup h k fuel none = _
    unfold lookup
    cases fuel <;> rfl
  | cons q r ih =>
    intro p fuel hf hs
    cases fuel with
    | zero => simp at hf
    | succ fuel =>
      show lookup h k (fuel + 1) (some q.1) = _
      unfold lookup
      rw [hs.1]
      simp only []
      by_cases hk : q.2.key = k
      · rw [if_pos hk]; simp [hk]
      · rw [if_neg hk, ih (some q.1) fuel (by simp at hf; omega) hs.2]
        simp [hk]

/-- One message, in terms of the contents of the list. -/
theorem repr_isDuplicate [DecidableEq κ] (timeout now : Nat) (k : κ) (d : DL (Dup κ))
    (l : List (Nat × Dup κ)) (hr : Repr d l) :
    ∃ r, isDuplicate timeout now k d = some r ∧
      (r.1 = true ↔ ∃ q ∈ l, now ≤ q.2.time + timeout ∧ q.2.key = k) ∧
      ∃ l', Repr r.2 l' ∧ l'.map Prod.snd =
        (l.map Prod.snd).filter (fun q => !decide (q.time + timeout < now)) ++
          (if r.1 then [] else [⟨now, k⟩]) := by
  obtain ⟨e, he, hfe, hre⟩ := repr_age timeout now (d.fresh + 1) l [] d hr (by have := hr.len; omega)
  rw [List.nil_append] at hre
  have hlk := lookup_seg e.heap k _ none (e.fresh + 1) (by have := hre.len; omega) hre.seg
  rw [← hre.head] at hlk
  have hmap : (l.filter (fun q => !decide (q.2.time + timeout < now))).map Prod.snd =
      (l.map Prod.snd).filter (fun q => !decide (q.time + timeout < now)) := by
    rw [List.filter_map]
    rfl
  have hdup : (l.filter (fun q => !decide (q.2.time + timeout < now))).any
      (fun q => decide (q.2.key = k)) = true ↔ ∃ q ∈ l, now ≤ q.2.time + timeout ∧ q.2.key = k := by
    rw [List.any_eq_true]
    constructor
    · rintro ⟨q, hq, hk⟩
      rw [List.mem_filter] at hq
      refine ⟨q, hq.1, ?_, by simpa using hk⟩
      have := hq.2
      simp at this
      omega
    · rintro ⟨q, hq, h1, h2⟩
      refine ⟨q, List.mem_filter.2 ⟨hq, ?_⟩, by simpa using h2⟩
      simp
      omega
  unfold isDuplicate
  rw [hr.head] at *
  rw [he]
  simp only [Option.bind_some]
  rw [hlk]
  simp only [Option.bind_some]
  cases hs : (l.filter (fun q => !decide (q.2.time + timeout < now))).any
      (fun q => decide (q.2.key = k)) with
  | true =>
    refine ⟨(true, e), rfl, ?_, _, hre, ?_⟩
    · rw [← hdup, hs]
    · simp [hmap]
  | false =>
    obtain ⟨f, hf, hrf, _⟩ := repr_append hre ⟨now, k⟩
    refine ⟨(false, f), ?_, ?_, _, hrf, ?_⟩
    · simp [hf]
    · rw [← hdup, hs]
    · simp [hmap]

end Verif.Dl
