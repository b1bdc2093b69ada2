import Verif.NiitModel

/-!
# C136: the routes through the translation devices follow the mesh
-/

namespace Verif.Niit

/-- `q` is the IPv4 network of a mapped prefix of the list -/
def V4Of (l : List Pfx) (q : Pfx) : Prop := ∃ p ∈ l, isMapped p = true ∧ toV4 p = q

/-- an IPv6 prefix -/
def V6 (p : Pfx) : Prop := p.addr.length = 16

/-- destinations in an event are IPv6 prefixes -/
def OpV6 : Op → Prop
  | .change p _ _ => V6 p
  | .remove p _ => V6 p
  | .lost p => V6 p
  | _ => True

def isLost : Op → Bool
  | .lost _ => true
  | _ => false

def addFails : Op → Bool
  | .change _ _ a => !a
  | _ => false

def isHnaOp : Op → Bool
  | .hnaAdd _ => true
  | .hnaDel _ => true
  | _ => false

private theorem mem_ins (x y : Pfx) (l : List Pfx) : y ∈ ins x l ↔ y = x ∨ y ∈ l := by
  unfold ins
  split
  · constructor
    · exact Or.inr
    · rintro (rfl | h)
      · assumption
      · exact h
  · simp

private theorem mem_del (x y : Pfx) (l : List Pfx) : y ∈ del x l ↔ y ∈ l ∧ y ≠ x := by
  simp [del, List.mem_filter]

private theorem mem_kadd (ps : List Pfx) (y : Pfx) : ∀ l, y ∈ ps.foldl (kroute true) l ↔ y ∈ l ∨ y ∈ ps := by
  induction ps with
  | nil => intro l; simp
  | cons p ps ih =>
    intro l
    rw [List.foldl_cons, ih]
    simp only [kroute, if_true, mem_ins, List.mem_cons]
    constructor
    · rintro ((h | h) | h)
      · exact Or.inr (Or.inl h)
      · exact Or.inl h
      · exact Or.inr (Or.inr h)
    · rintro (h | h | h)
      · exact Or.inl (Or.inr h)
      · exact Or.inl (Or.inl h)
      · exact Or.inr h

private theorem mem_kdel (ps : List Pfx) (y : Pfx) : ∀ l, y ∈ ps.foldl (kroute false) l ↔ y ∈ l ∧ y ∉ ps := by
  induction ps with
  | nil => intro l; simp
  | cons p ps ih =>
    intro l
    rw [List.foldl_cons, ih]
    simp only [kroute, Bool.false_eq_true, if_false, mem_del, List.mem_cons, not_or]
    constructor
    · rintro ⟨⟨h1, h2⟩, h3⟩; exact ⟨h1, h2, h3⟩
    · rintro ⟨h1, h2, h3⟩; exact ⟨⟨h1, h2⟩, h3⟩

private theorem mem_v4 (l : List Pfx) (q : Pfx) : q ∈ (l.filter isMapped).map toV4 ↔ V4Of l q := by
  simp only [List.mem_map, List.mem_filter, V4Of]
  constructor
  · rintro ⟨p, ⟨h1, h2⟩, h3⟩; exact ⟨p, h1, h2, h3⟩
  · rintro ⟨p, h1, h2, h3⟩; exact ⟨p, ⟨h1, h2⟩, h3⟩

/-- different mapped prefixes have different IPv4 networks -/
private theorem toV4_inj (p q : Pfx) (hp : V6 p) (hq : V6 q) (h1 : isMapped p = true) (h2 : isMapped q = true)
    (h : toV4 p = toV4 q) : p = q := by
  obtain ⟨a, n⟩ := p
  obtain ⟨b, m⟩ := q
  simp only [isMapped, Bool.and_eq_true, beq_iff_eq, decide_eq_true_eq] at h1 h2
  simp only [toV4, Pfx.mk.injEq] at h
  have ha : (a.drop 12).take 4 = a.drop 12 := List.take_of_length_le (by rw [List.length_drop]; have : a.length = 16 := hp; omega)
  have hb : (b.drop 12).take 4 = b.drop 12 := List.take_of_length_le (by rw [List.length_drop]; have : b.length = 16 := hq; omega)
  rw [ha, hb] at h
  have e : a = b := by
    rw [← List.take_append_drop 12 a, ← List.take_append_drop 12 b, h1.1, h2.1, h.1]
  have : n = m := by omega
  rw [e, this]

/-- the invariant: what is in the kernel lies between the routes that are installed and those in the tree -/
private structure Inv (s : St) : Prop where
  v6 : ∀ p ∈ s.tree, V6 p
  sub : ∀ p ∈ s.inst, p ∈ s.tree
  on : (s.up4 && s.up6) = true → ∀ q, (V4Of s.inst q → q ∈ s.k46) ∧ (q ∈ s.k46 → V4Of s.tree q)
  off : (s.up4 && s.up6) = false → ∀ q, q ∉ s.k46

private theorem v4Of_mono {l l' : List Pfx} (h : ∀ p ∈ l, p ∈ l') (q : Pfx) (hq : V4Of l q) : V4Of l' q := by
  obtain ⟨p, h1, h2, h3⟩ := hq
  exact ⟨p, h p h1, h2, h3⟩

/-- a deletion that succeeds, while the destination may stay in the tree -/
private theorem inv_kdel (s : St) (p : Pfx) (hi : Inv s) (hp : V6 p) : Inv (kdel s p true) ∧
    (kdel s p true).tree = s.tree ∧ (∀ x, x ∈ (kdel s p true).inst ↔ x ∈ s.inst ∧ x ≠ p) ∧
    (∀ q ∈ (kdel s p true).k46, q ∈ s.k46 ∧ (isMapped p = true → q ≠ toV4 p)) ∧
    (kdel s p true).up4 = s.up4 ∧ (kdel s p true).up6 = s.up6 ∧ (kdel s p true).hna = s.hna ∧ (kdel s p true).k64 = s.k64 := by
  have e : kdel s p true = handle { s with inst := del p s.inst } p false := rfl
  rw [e]
  unfold handle
  by_cases hc : (s.up4 && s.up6 && isMapped p) = true
  · rw [if_pos hc]
    rw [Bool.and_eq_true] at hc
    refine ⟨⟨hi.v6, fun x hx => hi.sub x ((mem_del _ _ _).1 hx).1, ?_, ?_⟩, rfl, fun x => mem_del _ _ _, ?_, rfl, rfl, rfl, rfl⟩
    · intro h q
      simp only [kroute, Bool.false_eq_true, if_false, mem_del]
      constructor
      · rintro ⟨x, hx, hm, hv⟩
        have hx := (mem_del _ _ _).1 hx
        refine ⟨(hi.on h q).1 ⟨x, hx.1, hm, hv⟩, ?_⟩
        intro hq
        exact hx.2 (toV4_inj x p (hi.v6 x (hi.sub x hx.1)) hp hm hc.2 (hv.trans hq))
      · rintro ⟨h1, -⟩; exact (hi.on h q).2 h1
    · intro h q
      simp only [kroute, Bool.false_eq_true, if_false, mem_del]
      rintro ⟨h1, -⟩; exact hi.off h q h1
    · intro q
      simp only [kroute, Bool.false_eq_true, if_false, mem_del]
      rintro ⟨h1, h2⟩; exact ⟨h1, fun _ => h2⟩
  · rw [if_neg hc]
    refine ⟨⟨hi.v6, fun x hx => hi.sub x ((mem_del _ _ _).1 hx).1, ?_, hi.off⟩, rfl, fun x => mem_del _ _ _, ?_, rfl, rfl, rfl, rfl⟩
    · intro h q
      refine ⟨fun hq => (hi.on h q).1 (v4Of_mono (fun x hx => ((mem_del _ _ _).1 hx).1) q hq), (hi.on h q).2⟩
    · intro q hq
      refine ⟨hq, fun hm => ?_⟩
      rw [hm, Bool.and_true] at hc
      exact absurd hq (hi.off (by simpa using hc) q)

private theorem inv_kadd (s : St) (p : Pfx) (ok : Bool) (hi : Inv s) (ht : p ∈ s.tree) : Inv (kadd s p ok) ∧
    (kadd s p ok).tree = s.tree ∧ (∀ x, x ∈ (kadd s p ok).inst ↔ (ok = true ∧ x = p) ∨ x ∈ s.inst) ∧
    (∀ q, q ∈ (kadd s p ok).k46 → q ∈ s.k46 ∨ (ok = true ∧ isMapped p = true ∧ q = toV4 p)) ∧
    (kadd s p ok).up4 = s.up4 ∧ (kadd s p ok).up6 = s.up6 ∧ (kadd s p ok).hna = s.hna ∧ (kadd s p ok).k64 = s.k64 := by
  cases ok with
  | false => exact ⟨hi, rfl, fun x => ⟨Or.inr, fun h => h.elim (fun h => by simp at h) id⟩, fun q h => Or.inl h, rfl, rfl, rfl, rfl⟩
  | true =>
    have e : kadd s p true = handle { s with inst := ins p s.inst } p true := rfl
    rw [e]
    unfold handle
    have hs : ∀ x ∈ ins p s.inst, x ∈ s.tree := by
      intro x hx
      rcases (mem_ins _ _ _).1 hx with rfl | hx
      · exact ht
      · exact hi.sub x hx
    have hm : ∀ x, x ∈ ins p s.inst ↔ (true = true ∧ x = p) ∨ x ∈ s.inst := by
      intro x; rw [mem_ins]; simp
    by_cases hc : (s.up4 && s.up6 && isMapped p) = true
    · rw [if_pos hc]
      have hc' := hc
      rw [Bool.and_eq_true] at hc'
      refine ⟨⟨hi.v6, hs, ?_, ?_⟩, rfl, hm, ?_, rfl, rfl, rfl, rfl⟩
      · intro h q
        simp only [kroute, if_true, mem_ins]
        constructor
        · rintro ⟨x, hx, hm, hv⟩
          rcases (mem_ins _ _ _).1 hx with rfl | hx
          · exact Or.inl hv.symm
          · exact Or.inr ((hi.on h q).1 ⟨x, hx, hm, hv⟩)
        · rintro (rfl | h1)
          · exact ⟨p, ht, hc'.2, rfl⟩
          · exact (hi.on h q).2 h1
      · intro h q
        exact absurd (hc'.1.symm.trans h) (by simp)
      · intro q
        simp only [kroute, if_true, mem_ins]
        rintro (h | h)
        · exact Or.inr ⟨trivial, hc'.2, h⟩
        · exact Or.inl h
    · rw [if_neg hc]
      refine ⟨⟨hi.v6, hs, ?_, hi.off⟩, rfl, hm, fun q h => Or.inl h, rfl, rfl, rfl, rfl⟩
      intro h q
      refine ⟨?_, (hi.on h q).2⟩
      rintro ⟨x, hx, hmx, hv⟩
      rcases (mem_ins _ _ _).1 hx with rfl | hx
      · exact absurd (by have h : (s.up4 && s.up6) = true := h; rw [h, hmx]; rfl) hc
      · exact (hi.on h q).1 ⟨x, hx, hmx, hv⟩

/-- what a link event leaves: the 4to6 routes of the whole tree, or none -/
private theorem link_k46 (s : St) (hi : Inv s) (t : St) (ht : t = link4 s true ∨ t = link4 s false ∨ t = link6 s true ∨ t = link6 s false) :
    t.tree = s.tree ∧ t.inst = s.inst ∧ t.hna = s.hna ∧
    ((t.up4 && t.up6) = false → ∀ q, q ∉ t.k46) ∧
    ((t.up4 && t.up6) = true → (s.up4 && s.up6) = true → t.k46 = s.k46) ∧
    ((t.up4 && t.up6) = true → (s.up4 && s.up6) = false → ∀ q, q ∈ t.k46 ↔ V4Of s.tree q) := by
  have hoff : (s.up4 && s.up6) = false → ∀ q, q ∉ s.k46 := hi.off
  have hon : (s.up4 && s.up6) = true → ∀ q, q ∈ s.k46 → V4Of s.tree q := fun h q => (hi.on h q).2
  have all : ∀ q, q ∈ s.k46 → V4Of s.tree q := by
    intro q hq
    cases h : (s.up4 && s.up6) with
    | true => exact hon h q hq
    | false => exact absurd hq (hoff h q)
  cases h4 : s.up4 <;> cases h6 : s.up6 <;> rcases ht with rfl | rfl | rfl | rfl <;>
    simp_all [link4, link6, changed, refresh, setup, cleanup, mem_kadd, mem_kdel, mem_v4]

private theorem inv_step (s : St) (o : Op) (hi : Inv s) (hv : OpV6 o) (hl : isLost o = false) : Inv (step s o) := by
  have lk : ∀ t, (t = link4 s true ∨ t = link4 s false ∨ t = link6 s true ∨ t = link6 s false) → Inv t := by
    intro t ht
    obtain ⟨h1, h2, -, h3, h4, h5⟩ := link_k46 s hi t ht
    refine ⟨by rw [h1]; exact hi.v6, by rw [h1, h2]; exact hi.sub, ?_, h3⟩
    intro h q
    rw [h1, h2]
    cases hs : (s.up4 && s.up6) with
    | true => rw [h4 h hs]; exact hi.on hs q
    | false =>
      rw [h5 h hs q]
      exact ⟨fun hq => v4Of_mono hi.sub q hq, id⟩
  cases o with
  | change p d a =>
    have hi1 : Inv { s with tree := ins p s.tree } := by
      refine ⟨?_, fun x hx => (mem_ins _ _ _).2 (Or.inr (hi.sub x hx)), ?_, hi.off⟩
      · intro x hx
        rcases (mem_ins _ _ _).1 hx with rfl | hx
        · exact hv
        · exact hi.v6 x hx
      · intro h q
        exact ⟨(hi.on h q).1, fun hq => v4Of_mono (fun x hx => (mem_ins _ _ _).2 (Or.inr hx)) q ((hi.on h q).2 hq)⟩
    have hp : p ∈ ins p s.tree := (mem_ins _ _ _).2 (Or.inl rfl)
    show Inv (kadd (predel _ p d) p a)
    cases d with
    | none => exact (inv_kadd _ p a hi1 hp).1
    | some ok =>
      cases ok with
      | false => exact (inv_kadd _ p a hi1 hp).1
      | true =>
        obtain ⟨g1, g2, -⟩ := inv_kdel _ p hi1 hv
        exact (inv_kadd _ p a g1 (by rw [g2]; exact hp)).1
  | remove p ok =>
    show Inv (if p ∈ s.tree then _ else s)
    split
    · cases ok with
      | false => exact hi
      | true =>
        obtain ⟨g1, g2, g3, g4, -⟩ := inv_kdel s p hi hv
        rw [if_pos rfl]
        refine ⟨fun x hx => hi.v6 x ((mem_del _ _ _).1 hx).1, ?_, ?_, g1.off⟩
        · intro x hx
          have := (g3 x).1 hx
          exact (mem_del _ _ _).2 ⟨hi.sub x this.1, this.2⟩
        · intro h q
          refine ⟨(g1.on h q).1, fun hq => ?_⟩
          obtain ⟨x, hx, hm, hvx⟩ := (g1.on h q).2 hq
          rw [g2] at hx
          refine ⟨x, (mem_del _ _ _).2 ⟨hx, ?_⟩, hm, hvx⟩
          rintro rfl
          exact (g4 q hq).2 hm hvx.symm
    · exact hi
  | lost p => simp [isLost] at hl
  | link4 up => cases up <;> exact lk _ (by simp [step])
  | link6 up => cases up <;> exact lk _ (by simp [step])
  | hnaAdd p => exact ⟨hi.v6, hi.sub, hi.on, hi.off⟩
  | hnaDel p => exact ⟨hi.v6, hi.sub, hi.on, hi.off⟩

private theorem inv_init (a b : Bool) (hna : List Pfx) : Inv (init a b hna) ∧ (init a b hna).tree = [] ∧ (init a b hna).inst = [] := by
  have h : (init a b hna).tree = [] ∧ (init a b hna).inst = [] ∧ (init a b hna).k46 = [] := by
    unfold init setup
    split <;> exact ⟨rfl, rfl, rfl⟩
  obtain ⟨h1, h2, h3⟩ := h
  refine ⟨⟨by rw [h1]; simp, by rw [h2]; simp, ?_, by rw [h3]; simp⟩, h1, h2⟩
  intro _ q
  rw [h1, h2, h3]
  simp [V4Of]

private theorem inv_run (a b : Bool) (hna : List Pfx) (ops : List Op) (hv : ∀ o ∈ ops, OpV6 o) (hl : ∀ o ∈ ops, isLost o = false) :
    Inv (ops.foldl step (init a b hna)) := by
  have key : ∀ (ops : List Op) (s : St), Inv s → (∀ o ∈ ops, OpV6 o) → (∀ o ∈ ops, isLost o = false) → Inv (ops.foldl step s) := by
    intro ops
    induction ops with
    | nil => intro s h _ _; exact h
    | cons o ops ih =>
      intro s h hv hl
      exact ih _ (inv_step s o h (hv o (by simp)) (hl o (by simp))) (fun x hx => hv x (by simp [hx])) (fun x hx => hl x (by simp [hx]))
  exact key ops _ (inv_init a b hna).1 hv hl

/-- the IPv6 prefix `p` stands for the IPv4 network `q`: the address is ::ffff: and that of `q`, the length is 96
more -/
def Embeds (q p : Pfx) : Prop :=
  q.addr.length = 4 ∧ p.addr = List.replicate 10 0 ++ [255, 255] ++ q.addr ∧ p.len = 96 + q.len

/-- Which prefixes count as mapped, and for what, is as RFC 4291 has it. -/
theorem C136_mapped (p q : Pfx) (hp : V6 p) : (isMapped p = true ∧ toV4 p = q) ↔ Embeds q p := by
  obtain ⟨a, n⟩ := p
  obtain ⟨b, m⟩ := q
  have ha : a.length = 16 := hp
  have ht : (a.drop 12).take 4 = a.drop 12 := List.take_of_length_le (by rw [List.length_drop]; omega)
  simp only [isMapped, toV4, Embeds, Bool.and_eq_true, beq_iff_eq, decide_eq_true_eq, Pfx.mk.injEq, ht]
  constructor
  · rintro ⟨⟨h1, h2⟩, rfl, rfl⟩
    refine ⟨by rw [List.length_drop]; omega, ?_, by omega⟩
    have := List.take_append_drop 12 a
    rw [h1] at this
    exact this.symm
  · rintro ⟨h1, rfl, rfl⟩
    exact ⟨⟨rfl, by omega⟩, rfl, by omega⟩

example : Embeds ⟨[10, 1, 0, 0], 16⟩ ⟨[0, 0, 0, 0, 0, 0, 0, 0, 0, 0, 255, 255, 10, 1, 0, 0], 112⟩ := ⟨rfl, rfl, rfl⟩

/-- **C136 (partial).**  Full claim: while both devices are up, the IPv4 routes through `niit4to6` are those of
the mapped IPv6 routes in the kernel, and there are none otherwise.  What holds, over all sequences of events
in which no destination is lost with its interface: every installed mapped route has its IPv4 route, every IPv4
route belongs to a destination in the routing tree, and there are none while a device is down.  Missing: after
an interface was lost stale routes remain (`C136_lost`); a destination whose route could not be installed gets
an IPv4 route when a device comes up (`C136_failed`). -/
theorem C136_routes_partial (a b : Bool) (hna : List Pfx) (ops : List Op) (hv : ∀ o ∈ ops, OpV6 o)
    (hl : ∀ o ∈ ops, isLost o = false) (s : St) (hs : s = ops.foldl step (init a b hna)) :
    ((s.up4 && s.up6) = true → ∀ q, (V4Of s.inst q → q ∈ s.k46) ∧ (q ∈ s.k46 → V4Of s.tree q)) ∧
    ((s.up4 && s.up6) = false → s.k46 = []) := by
  have hi := inv_run a b hna ops hv hl
  rw [← hs] at hi
  refine ⟨hi.on, fun h => List.eq_nil_iff_forall_not_mem.2 (hi.off h)⟩

/-- **C136 (partial).**  If moreover every addition succeeds, the IPv4 routes are exactly those of the
installed mapped routes. -/
theorem C136_exact_partial (a b : Bool) (hna : List Pfx) (ops : List Op) (hv : ∀ o ∈ ops, OpV6 o)
    (hl : ∀ o ∈ ops, isLost o = false) (hf : ∀ o ∈ ops, addFails o = false) (s : St)
    (hs : s = ops.foldl step (init a b hna)) (hup : (s.up4 && s.up6) = true) :
    ∀ q, q ∈ s.k46 ↔ V4Of s.inst q := by
  have hi := inv_run a b hna ops hv hl
  have key : ∀ (ops : List Op) (s : St), Inv s → (∀ p ∈ s.tree, p ∈ s.inst) → (∀ o ∈ ops, OpV6 o) → (∀ o ∈ ops, isLost o = false) →
      (∀ o ∈ ops, addFails o = false) → ∀ p ∈ (ops.foldl step s).tree, p ∈ (ops.foldl step s).inst := by
    intro ops
    induction ops with
    | nil => intro s _ h _ _ _; exact h
    | cons o ops ih =>
      intro s hi h hv hl hf
      refine ih _ (inv_step s o hi (hv o (by simp)) (hl o (by simp))) ?_ (fun x hx => hv x (by simp [hx]))
        (fun x hx => hl x (by simp [hx])) (fun x hx => hf x (by simp [hx]))
      have hv := hv o (by simp)
      have hl := hl o (by simp)
      have hf := hf o (by simp)
      have lk : ∀ t, (t = link4 s true ∨ t = link4 s false ∨ t = link6 s true ∨ t = link6 s false) → ∀ p ∈ t.tree, p ∈ t.inst := by
        intro t ht
        obtain ⟨h1, h2, -⟩ := link_k46 s hi t ht
        rw [h1, h2]; exact h
      cases o with
      | change p d ok =>
        have hok : ok = true := by simpa [addFails] using hf
        subst hok
        have hi1 : ∀ x, x ∈ ins p s.tree ↔ x = p ∨ x ∈ s.tree := fun x => mem_ins _ _ _
        have base : ∀ t : St, t.tree = ins p s.tree → (∀ x ∈ s.tree, x = p ∨ x ∈ t.inst) →
            ∀ x ∈ (kadd t p true).tree, x ∈ (kadd t p true).inst := by
          intro t ht hin x hx
          have e1 : (kadd t p true).tree = t.tree := by
            show (handle { t with inst := ins p t.inst } p true).tree = _
            unfold handle; split <;> rfl
          have e2 : (kadd t p true).inst = ins p t.inst := by
            show (handle { t with inst := ins p t.inst } p true).inst = _
            unfold handle; split <;> rfl
          rw [e1, ht] at hx
          rw [e2, mem_ins]
          rcases (hi1 x).1 hx with rfl | hx
          · exact Or.inl rfl
          · exact hin x hx
        show ∀ x ∈ (kadd (predel _ p d) p true).tree, x ∈ (kadd (predel _ p d) p true).inst
        cases d with
        | none => exact base _ rfl fun x hx => Or.inr (h x hx)
        | some ok =>
          cases ok with
          | false => exact base _ rfl fun x hx => Or.inr (h x hx)
          | true =>
            have e1 : (predel { s with tree := ins p s.tree } p (some true)).tree = ins p s.tree := by
              show (handle { s with tree := ins p s.tree, inst := del p s.inst } p false).tree = _
              unfold handle; split <;> rfl
            have e2 : (predel { s with tree := ins p s.tree } p (some true)).inst = del p s.inst := by
              show (handle { s with tree := ins p s.tree, inst := del p s.inst } p false).inst = _
              unfold handle; split <;> rfl
            refine base _ e1 fun x hx => ?_
            rw [e2, mem_del]
            by_cases hxp : x = p
            · exact Or.inl hxp
            · exact Or.inr ⟨h x hx, hxp⟩
      | remove p ok =>
        show ∀ x ∈ (if p ∈ s.tree then (if ok = true then { kdel s p true with tree := del p s.tree } else s) else s).tree,
          x ∈ (if p ∈ s.tree then (if ok = true then { kdel s p true with tree := del p s.tree } else s) else s).inst
        split
        · cases ok with
          | false => exact h
          | true =>
            obtain ⟨-, -, g3, -⟩ := inv_kdel s p hi hv
            rw [if_pos rfl]
            intro x hx
            have := (mem_del _ _ _).1 hx
            exact (g3 x).2 ⟨h x this.1, this.2⟩
        · exact h
      | lost p => simp [isLost] at hl
      | link4 up => cases up <;> exact lk _ (by simp [step])
      | link6 up => cases up <;> exact lk _ (by simp [step])
      | hnaAdd p => exact h
      | hnaDel p => exact h
  have hti := key ops _ (inv_init a b hna).1 (by rw [(inv_init a b hna).2.1]; simp) hv hl hf
  rw [← hs] at hi hti
  intro q
  exact ⟨fun hq => v4Of_mono hti q ((hi.on hup q).2 hq), (hi.on hup q).1⟩

/-- `q` is a mapped prefix of the list -/
def MappedOf (l : List Pfx) (q : Pfx) : Prop := q ∈ l ∧ isMapped q = true

private theorem k64_link (s t : St) (ht : t = link4 s true ∨ t = link4 s false ∨ t = link6 s true ∨ t = link6 s false)
    (h : ∀ q, q ∈ s.k64 ↔ ((s.up4 && s.up6) = true ∧ MappedOf s.hna q)) :
    t.hna = s.hna ∧ ∀ q, q ∈ t.k64 ↔ ((t.up4 && t.up6) = true ∧ MappedOf s.hna q) := by
  have mf : ∀ q, q ∈ s.hna ∧ isMapped q = true ↔ MappedOf s.hna q := fun q => Iff.rfl
  cases h4 : s.up4 <;> cases h6 : s.up6 <;> simp only [h4, h6, Bool.and_true, Bool.and_false, Bool.false_eq_true,
      false_and, true_and, iff_false] at h <;>
    rcases ht with rfl | rfl | rfl | rfl <;>
    simp [link4, link6, changed, refresh, setup, cleanup, mem_kadd, mem_kdel, h4, h6, h, mf]

private theorem k64_step (s : St) (o : Op) (hn : isHnaOp o = false)
    (h : ∀ q, q ∈ s.k64 ↔ ((s.up4 && s.up6) = true ∧ MappedOf s.hna q)) :
    (step s o).hna = s.hna ∧ ∀ q, q ∈ (step s o).k64 ↔ (((step s o).up4 && (step s o).up6) = true ∧ MappedOf s.hna q) := by
  have hh : ∀ (t : St) (p : Pfx) (b : Bool), (handle t p b).hna = t.hna ∧ (handle t p b).k64 = t.k64 ∧
      (handle t p b).up4 = t.up4 ∧ (handle t p b).up6 = t.up6 := by
    intro t p b; unfold handle; split <;> exact ⟨rfl, rfl, rfl, rfl⟩
  have hd : ∀ (t : St) (p : Pfx) (b : Bool), (kdel t p b).hna = t.hna ∧ (kdel t p b).k64 = t.k64 ∧
      (kdel t p b).up4 = t.up4 ∧ (kdel t p b).up6 = t.up6 := by
    intro t p b
    cases b with
    | false => exact ⟨rfl, rfl, rfl, rfl⟩
    | true => exact hh { t with inst := del p t.inst } p false
  have ha : ∀ (t : St) (p : Pfx) (b : Bool), (kadd t p b).hna = t.hna ∧ (kadd t p b).k64 = t.k64 ∧
      (kadd t p b).up4 = t.up4 ∧ (kadd t p b).up6 = t.up6 := by
    intro t p b
    cases b with
    | false => exact ⟨rfl, rfl, rfl, rfl⟩
    | true => exact hh { t with inst := ins p t.inst } p true
  have same : ∀ t : St, t.hna = s.hna → t.k64 = s.k64 → t.up4 = s.up4 → t.up6 = s.up6 →
      t.hna = s.hna ∧ ∀ q, q ∈ t.k64 ↔ ((t.up4 && t.up6) = true ∧ MappedOf s.hna q) := by
    intro t h1 h2 h3 h4
    refine ⟨h1, fun q => ?_⟩
    rw [h2, h3, h4]; exact h q
  have lk := fun t ht => k64_link s t ht h
  cases o with
  | change p d a =>
    obtain ⟨g1, g2, g3, g4⟩ := ha (predel { s with tree := ins p s.tree } p d) p a
    have k : (predel { s with tree := ins p s.tree } p d).hna = s.hna ∧ (predel { s with tree := ins p s.tree } p d).k64 = s.k64 ∧
        (predel { s with tree := ins p s.tree } p d).up4 = s.up4 ∧ (predel { s with tree := ins p s.tree } p d).up6 = s.up6 := by
      cases d with
      | none => exact ⟨rfl, rfl, rfl, rfl⟩
      | some ok => exact hd { s with tree := ins p s.tree } p ok
    exact same _ (g1.trans k.1) (g2.trans k.2.1) (g3.trans k.2.2.1) (g4.trans k.2.2.2)
  | remove p ok =>
    have e : step s (.remove p ok) = s ∨ step s (.remove p ok) = { kdel s p true with tree := del p s.tree } := by
      show (if p ∈ s.tree then (if ok = true then _ else s) else s) = s ∨ (if p ∈ s.tree then (if ok = true then _ else s) else s) = _
      split
      · split
        · exact Or.inr rfl
        · exact Or.inl rfl
      · exact Or.inl rfl
    rcases e with e | e
    · rw [e]; exact same s rfl rfl rfl rfl
    · rw [e]
      obtain ⟨g1, g2, g3, g4⟩ := hd s p true
      exact same _ g1 g2 g3 g4
  | lost p => exact same _ rfl rfl rfl rfl
  | link4 up => cases up <;> exact lk _ (by simp [step])
  | link6 up => cases up <;> exact lk _ (by simp [step])
  | hnaAdd p => simp [isHnaOp] at hn
  | hnaDel p => simp [isHnaOp] at hn

private theorem k64_run (a b : Bool) (hna : List Pfx) (ops : List Op) (hn : ∀ o ∈ ops, isHnaOp o = false) :
    (ops.foldl step (init a b hna)).hna = hna ∧
    ∀ q, q ∈ (ops.foldl step (init a b hna)).k64 ↔
      (((ops.foldl step (init a b hna)).up4 && (ops.foldl step (init a b hna)).up6) = true ∧ MappedOf hna q) := by
  have key : ∀ (ops : List Op) (s : St), s.hna = hna → (∀ q, q ∈ s.k64 ↔ ((s.up4 && s.up6) = true ∧ MappedOf hna q)) →
      (∀ o ∈ ops, isHnaOp o = false) → (ops.foldl step s).hna = hna ∧
      ∀ q, q ∈ (ops.foldl step s).k64 ↔ (((ops.foldl step s).up4 && (ops.foldl step s).up6) = true ∧ MappedOf hna q) := by
    intro ops
    induction ops with
    | nil => intro s h1 h2 _; exact ⟨h1, h2⟩
    | cons o ops ih =>
      intro s h1 h2 hn
      obtain ⟨g1, g2⟩ := k64_step s o (hn o (by simp)) (by rw [h1]; exact h2)
      rw [h1] at g1 g2
      exact ih _ g1 g2 fun x hx => hn x (by simp [hx])
  have mf : ∀ q, q ∈ hna.filter isMapped ↔ MappedOf hna q := fun q => List.mem_filter
  refine key ops _ ?_ ?_ hn
  · unfold init setup; split <;> rfl
  · intro q
    cases a <;> cases b <;> simp [init, setup, mem_kadd, mf]

/-- **C136 (partial).**  Full claim: while both devices are up the IPv6 routes through `niit6to4` are those of
the mapped HNA networks, and there are none otherwise.  What holds: exactly this, over all sequences of events
that do not change the HNA networks (lost interfaces included).  Missing: networks added or removed at run time
(`C136_hna`). -/
theorem C136_static_partial (a b : Bool) (hna : List Pfx) (ops : List Op) (hn : ∀ o ∈ ops, isHnaOp o = false) (s : St)
    (hs : s = ops.foldl step (init a b hna)) (q : Pfx) :
    q ∈ s.k64 ↔ (s.up4 = true ∧ s.up6 = true) ∧ q ∈ hna ∧ isMapped q = true := by
  rw [hs, (k64_run a b hna ops hn).2 q, Bool.and_eq_true]; rfl

private theorem remove_all (ps : List Pfx) : ∀ s, Inv s → (∀ p ∈ ps, V6 p) →
    Inv (ps.foldl (fun t p => step t (.remove p true)) s) ∧
    ∀ x, x ∈ (ps.foldl (fun t p => step t (.remove p true)) s).tree ↔ x ∈ s.tree ∧ x ∉ ps := by
  induction ps with
  | nil => intro s h _; exact ⟨h, by simp⟩
  | cons p ps ih =>
    intro s h hv
    have h1 := inv_step s (.remove p true) h (hv p (by simp)) rfl
    have h2 : ∀ x, x ∈ (step s (.remove p true)).tree ↔ x ∈ s.tree ∧ x ≠ p := by
      intro x
      show x ∈ (if p ∈ s.tree then (if true = true then { kdel s p true with tree := del p s.tree } else s) else s).tree ↔ _
      split
      · rw [if_pos rfl]; exact mem_del _ _ _
      · next hn =>
        constructor
        · intro hx; exact ⟨hx, by rintro rfl; exact hn hx⟩
        · exact fun hx => hx.1
    obtain ⟨g1, g2⟩ := ih _ h1 fun x hx => hv x (by simp [hx])
    refine ⟨g1, fun x => ?_⟩
    rw [List.foldl_cons, g2 x, h2 x, List.mem_cons, not_or]
    constructor
    · rintro ⟨⟨a1, a2⟩, a3⟩; exact ⟨a1, a2, a3⟩
    · rintro ⟨a1, a2, a3⟩; exact ⟨⟨a1, a2⟩, a3⟩

private theorem remove_ops (ps : List Pfx) (s : St) : ps.foldl (fun t p => step t (.remove p true)) s = (ps.map fun p => Op.remove p true).foldl step s := by
  rw [List.foldl_map]

/-- **C136 (partial).**  Full claim: at the end no route through the devices is left.  What holds: so it is if no
interface was lost and the HNA networks did not change.  Missing: `C136_lost`, `C136_hna`. -/
theorem C136_shutdown_partial (a b : Bool) (hna : List Pfx) (ops : List Op) (hv : ∀ o ∈ ops, OpV6 o)
    (hl : ∀ o ∈ ops, isLost o = false) (hn : ∀ o ∈ ops, isHnaOp o = false) (s : St)
    (hs : s = shutdown (ops.foldl step (init a b hna))) : s.k46 = [] ∧ s.k64 = [] := by
  have hi := inv_run a b hna ops hv hl
  obtain ⟨s0, h0⟩ : ∃ s0, s0 = ops.foldl step (init a b hna) := ⟨_, rfl⟩
  rw [← h0] at hi hs
  obtain ⟨g1, g2⟩ := remove_all s0.tree s0 hi hi.v6
  have hk := k64_run a b hna (ops ++ s0.tree.map fun p => Op.remove p true) (by
    intro o ho
    rcases List.mem_append.1 ho with ho | ho
    · exact hn o ho
    · obtain ⟨p, -, rfl⟩ := List.mem_map.1 ho; rfl)
  rw [List.foldl_append, ← h0, ← remove_ops] at hk
  obtain ⟨t, ht⟩ : ∃ t, t = s0.tree.foldl (fun t p => step t (.remove p true)) s0 := ⟨_, rfl⟩
  have hs : s = cleanup t := by rw [hs, ht]; rfl
  rw [← ht] at g1 g2 hk
  have htree : ∀ x, x ∉ t.tree := by intro x hx; have := (g2 x).1 hx; exact this.2 this.1
  have h46 : ∀ q, q ∉ t.k46 := by
    intro q hq
    cases hup : (t.up4 && t.up6) with
    | false => exact g1.off hup q hq
    | true =>
      obtain ⟨p, hp, -⟩ := (g1.on hup q).2 hq
      exact htree p hp
  rw [hs]
  unfold cleanup
  by_cases hu : (!t.up6) = true
  · rw [if_pos hu]
    refine ⟨List.eq_nil_iff_forall_not_mem.2 h46, List.eq_nil_iff_forall_not_mem.2 fun q hq => ?_⟩
    have := ((hk.2 q).1 hq).1
    rw [Bool.and_eq_true] at this
    rw [this.2] at hu; simp at hu
  · rw [if_neg hu]
    refine ⟨List.eq_nil_iff_forall_not_mem.2 h46, List.eq_nil_iff_forall_not_mem.2 fun q hq => ?_⟩
    have hq := (mem_kdel _ _ _).1 hq
    have h2 := ((hk.2 q).1 hq.1).2
    exact hq.2 (List.mem_filter.2 ⟨by rw [hk.1]; exact h2.1, h2.2⟩)

/-- ::ffff:10.1.0.0/112 and ::ffff:10.2.0.1/128, and a prefix that is not mapped -/
def samp1 : Pfx := ⟨[0, 0, 0, 0, 0, 0, 0, 0, 0, 0, 255, 255, 10, 1, 0, 0], 112⟩
def samp2 : Pfx := ⟨[0, 0, 0, 0, 0, 0, 0, 0, 0, 0, 255, 255, 10, 2, 0, 1], 128⟩
def samp3 : Pfx := ⟨[32, 1, 0, 0, 0, 0, 0, 0, 0, 0, 255, 255, 10, 2, 0, 1], 128⟩

/-- routes that come and go while a device goes down and comes back -/
def sampleOps : List Op :=
  [.change samp1 none true, .change samp3 none true, .link4 true, .change samp2 none true, .link6 false, .remove samp1 true,
    .link6 true, .change samp2 (some true) true]

example : (∀ o ∈ sampleOps, OpV6 o) ∧ (∀ o ∈ sampleOps, isLost o = false) ∧ (∀ o ∈ sampleOps, addFails o = false) ∧
    (∀ o ∈ sampleOps, isHnaOp o = false) ∧
    (sampleOps.foldl step (init false true [samp1, samp3])).k46 = [⟨[10, 2, 0, 1], 32⟩] ∧
    (sampleOps.foldl step (init false true [samp1, samp3])).k64 = [samp1] ∧
    (sampleOps.foldl step (init false true [samp1, samp3])).tree = [samp2, samp3] := by
  refine ⟨?_, by decide, by decide, by decide, by decide, by decide, by decide⟩
  intro o ho
  simp only [sampleOps, List.mem_cons, List.not_mem_nil, or_false] at ho
  rcases ho with rfl | rfl | rfl | rfl | rfl | rfl | rfl | rfl <;> first | trivial | rfl

/-- **C136 is false** if a destination goes with its interface: the IPv4 route stays, until and after the end. -/
theorem C136_lost :
    ([Op.change samp1 none true, .lost samp1].foldl step (init true true [])).k46 = [⟨[10, 1, 0, 0], 16⟩] ∧
    ([Op.change samp1 none true, .lost samp1].foldl step (init true true [])).tree = [] ∧
    (shutdown ([Op.change samp1 none true, .lost samp1].foldl step (init true true []))).k46 = [⟨[10, 1, 0, 0], 16⟩] := by decide

/-- **C136 is false** if the route could not be installed: when a device comes up, the IPv4 route is made although
there is no IPv6 route it could lead to. -/
theorem C136_failed :
    ([Op.change samp1 none false, .link4 true].foldl step (init false true [])).k46 = [⟨[10, 1, 0, 0], 16⟩] ∧
    ([Op.change samp1 none false, .link4 true].foldl step (init false true [])).inst = [] := by decide

/-- **C136 is false** for HNA networks that change at run time: a new one gets no route, and the route of a removed
one stays, until and after the end. -/
theorem C136_hna :
    ([Op.hnaAdd samp1].foldl step (init true true [])).k64 = [] ∧
    ([Op.hnaDel samp1].foldl step (init true true [samp1])).k64 = [samp1] ∧
    ([Op.hnaDel samp1].foldl step (init true true [samp1])).hna = [] ∧
    (shutdown ([Op.hnaDel samp1].foldl step (init true true [samp1]))).k64 = [samp1] := by decide

end Verif.Niit
