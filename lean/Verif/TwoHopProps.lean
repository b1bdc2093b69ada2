import Verif.TwoHopObs

/-!
# C81, C82, C83: the two-hop neighbour tables

The tables are described by what is recorded for a pair of neighbour and two-hop address: nothing, or a validity timer and
costs (`At`).
-/
namespace Verif.TwoHop

/-! ## Operations and reachable states -/

/-- Everything that changes the tables, with the surroundings at that time. -/
inductive Op where
  | hello (env : Env) (lq : Bool) (first : Option Nat) (n now vtime will : Nat) (ms : List Item)
  | expire (n lid now : Nat)
  | del (a : Nat)
  | ins (a : Nat)
  | status (env : Env) (n : Nat) (sym : Bool)
  | mid (a : Nat)
  | rename (n a : Nat)

/-- Their effect.  A timer fires on an entry of the list of a neighbour. -/
def step (s : St) : Op → Option St
  | .hello env lq first n now vtime will ms => hello env lq first n now vtime will s ms
  | .expire n lid _ =>
    match s.nbr n with
    | none => some s
    | some x =>
      match x.list2.find? (fun e => e.lid == lid) with
      | none => some s
      | some e => unlink n s e
  | .del a => delNbr s a
  | .ins a => some (insNbr s a)
  | .status env n sym => setStatus env s n sym
  | .mid a => midTwo s a
  | .rename n a => some (rename s n a)

/-- When they can happen: a HELLO and a change of status concern an existing neighbour (that its links point to one is C59), the MID set
is well kept, and a timer fires only at its time (C08). -/
def Enabled (s : St) : Op → Prop
  | .hello env _ _ n _ _ _ _ => env.Coherent ∧ ∃ x, s.nbr n = some x
  | .expire n lid now => ∃ x e d, s.nbr n = some x ∧ e ∈ x.list2 ∧ e.lid = lid ∧ e.timer = some d ∧ d ≤ now
  | .status _ n _ => ∃ x, s.nbr n = some x
  | _ => True

inductive Reach : St → Prop where
  | init : Reach init
  | step {s s' : St} (op : Op) : Reach s → Enabled s op → step s op = some s' → Reach s'

/-! ## Specification -/

/-- Both lists describe the same relation, every pointer in them leads to an existing entry, every pair is there once, the counter
counts, no two-hop neighbour is kept that nobody leads to, and there is one entry for an address.  The two tables hold exactly the existing entries. -/
structure Consistent (s : St) : Prop where
  toTwo : ∀ n x e, s.nbr n = some x → e ∈ x.list2 → ∃ t, s.two e.two = some t ∧ ∃ b ∈ t.nb, b.nbr = n
  toNbr : ∀ i t b, s.two i = some t → b ∈ t.nb → ∃ x, s.nbr b.nbr = some x ∧ ∃ e ∈ x.list2, e.two = i
  once : ∀ n x, s.nbr n = some x → (x.list2.map L2.two).Nodup
  once2 : ∀ i t, s.two i = some t → (t.nb.map NbEnt.nbr).Nodup
  count : ∀ i t, s.two i = some t → t.cnt = t.nb.length ∧ t.nb ≠ []
  addr : ∀ i j t u, s.two i = some t → s.two j = some u → t.addr = u.addr → i = j
  table : s.twos.Nodup ∧ ∀ i, i ∈ s.twos ↔ ∃ t, s.two i = some t
  nbrTable : s.nbrs.Nodup ∧ ∀ n, n ∈ s.nbrs ↔ ∃ x, s.nbr n = some x

/-- The message lists the address `a`: an entry for a symmetric neighbour or MPR that is no interface of this host and
belongs to the main address `a`. -/
def Lists (env : Env) (ms : List Item) (a : Nat) : Prop :=
  ∃ m ∈ ms, env.own m.addr = false ∧ (m.status = 1 ∨ m.status = 2) ∧ (env.main m.addr).getD m.addr = a

/-! ## Helpers -/

private theorem good_consistent {s : St} (h : Good s) (hF : Full s) : Consistent s where
  toTwo := by
    intro n x e hx he
    obtain ⟨y, hy, hn⟩ := h.fwd _ _ (lk_of hx) (e.lid, e.two) (List.mem_map.2 ⟨e, he, rfl⟩)
    obtain ⟨t, ht, rfl⟩ := of_bk hy
    obtain ⟨b, hb, hb'⟩ := List.mem_map.1 hn
    exact ⟨t, ht, b, hb, hb'⟩
  toNbr := by
    intro i t b ht hb
    obtain ⟨l, hl, hl'⟩ := h.bwd _ _ (bk_of ht) b.nbr (List.mem_map.2 ⟨b, hb, rfl⟩)
    obtain ⟨x, hx, rfl⟩ := of_lk hl
    rw [List.map_map] at hl'
    obtain ⟨e, he, he'⟩ := List.mem_map.1 hl'
    exact ⟨x, hx, e, he, he'⟩
  once := by
    intro n x hx
    have := h.nd1 _ _ (lk_of hx)
    rw [List.map_map] at this
    exact this
  once2 := fun i t ht => (h.nd2 _ _ (bk_of ht)).1
  count := by
    intro i t ht
    have h1 := (h.nd2 _ _ (bk_of ht)).2
    have h2 := hF _ _ (bk_of ht)
    simp only [List.length_map] at h1
    exact ⟨h1, fun hc => h2 (by simp only [hc, List.map_nil])⟩
  addr := fun i j t u ht hu => h.inj _ _ _ _ (bk_of ht) (bk_of hu)
  table := by
    refine ⟨h.twd, ?_⟩
    intro i
    rw [h.tw]
    constructor
    · rintro ⟨y, hy⟩; obtain ⟨t, ht, -⟩ := of_bk hy; exact ⟨t, ht⟩
    · rintro ⟨t, ht⟩; exact ⟨_, bk_of ht⟩
  nbrTable := by
    refine ⟨h.nbd, ?_⟩
    intro n
    rw [h.nb]
    constructor
    · rintro ⟨y, hy⟩; obtain ⟨x, hx, -⟩ := of_lk hy; exact ⟨x, hx⟩
    · rintro ⟨x, hx⟩; exact ⟨_, lk_of hx⟩

private theorem init_good : Good init ∧ Full init := by
  have hb : ∀ i, bk init i = none := fun _ => rfl
  have hl : ∀ i, lk init i = none := fun _ => rfl
  refine ⟨{
    tw := ?_, nb := ?_, twd := List.nodup_nil, nbd := List.nodup_nil
    lim1 := fun i y hy => (by rw [hb] at hy; cases hy)
    lim2 := fun i y hy => (by rw [hl] at hy; cases hy)
    lids := fun i y hy => (by rw [hl] at hy; cases hy)
    lidlt := fun i y hy => (by rw [hl] at hy; cases hy)
    fwd := fun i y hy => (by rw [hl] at hy; cases hy)
    bwd := fun i y hy => (by rw [hb] at hy; cases hy)
    nd1 := fun i y hy => (by rw [hl] at hy; cases hy)
    nd2 := fun i y hy => (by rw [hb] at hy; cases hy)
    inj := fun i j y z hy => (by rw [hb] at hy; cases hy) }, fun i y hy => (by rw [hb] at hy; cases hy)⟩
  · intro i; constructor
    · intro h; cases h
    · rintro ⟨y, hy⟩; rw [hb] at hy; cases hy
  · intro i; constructor
    · intro h; cases h
    · rintro ⟨y, hy⟩; rw [hl] at hy; cases hy

private theorem delNbr_good {s : St} (h : Good s) (hF : Full s) (a : Nat) : ∃ s', delNbr s a = some s' ∧ Good s' ∧ Full s' := by
  unfold delNbr
  cases hl : lookupNbr s a with
  | none => exact ⟨s, rfl, h, hF⟩
  | some n =>
    simp only
    have hp := List.find?_some hl
    cases hx : s.nbr n with
    | none => rw [hx] at hp; cases hp
    | some x =>
      simp only
      obtain ⟨s1, h1, h2, h3, h4, -⟩ := loop_unlink x.list2 s x h hF hx rfl
      rw [h1]
      obtain ⟨g1, g2⟩ := freeNbr_good h2 h3 h4 rfl
      exact ⟨_, rfl, g1, g2⟩

private theorem insNbr_good {s : St} (h : Good s) (hF : Full s) (a : Nat) : Good (insNbr s a) ∧ Full (insNbr s a) := by
  unfold insNbr
  cases lookupNbr s a with
  | some _ => exact ⟨h, hF⟩
  | none =>
    simp only
    obtain ⟨s', hs'⟩ : ∃ s', s' = ({ s with nbr := fun i => if i = s.next then some { addr := a, sym := false, will := 0, list2 := [] } else s.nbr i, nbrs := s.next :: s.nbrs, next := s.next + 1 } : St) := ⟨_, rfl⟩
    rw [← hs']
    have e1 : ∀ i, lk s' i = if i = s.next then some [] else lk s i := by
      intro i; rw [hs']; unfold lk; simp only
      by_cases hi : i = s.next
      · rw [if_pos hi, if_pos hi]; rfl
      · rw [if_neg hi, if_neg hi]
    have e2 : ∀ i, bk s' i = bk s i := by intro i; rw [hs']; rfl
    have enx : s'.next = s.next + 1 := by rw [hs']
    have etw : s'.twos = s.twos := by rw [hs']
    have enb : s'.nbrs = s.next :: s.nbrs := by rw [hs']
    have hfresh : ∀ l, lk s s.next ≠ some l := by intro l hl; have := h.lim2 _ _ hl; omega
    have L : ∀ i m, lk s' i = some m → (i = s.next ∧ m = []) ∨ (i ≠ s.next ∧ lk s i = some m) := by
      intro i m hm
      rw [e1] at hm
      by_cases hi : i = s.next
      · rw [if_pos hi] at hm; cases hm; exact Or.inl ⟨hi, rfl⟩
      · rw [if_neg hi] at hm; exact Or.inr ⟨hi, hm⟩
    refine ⟨{
      tw := ?_, nb := ?_, twd := by rw [etw]; exact h.twd
      nbd := ?_, lim1 := ?_, lim2 := ?_, lids := ?_, lidlt := ?_, fwd := ?_, bwd := ?_, nd1 := ?_
      nd2 := fun i y hy => h.nd2 i y (by rw [← e2]; exact hy)
      inj := fun i j y z hy hz => h.inj i j y z (by rw [← e2]; exact hy) (by rw [← e2]; exact hz) },
      fun i y hy => hF i y (by rw [← e2]; exact hy)⟩
    · intro i; rw [etw, e2]; exact h.tw i
    · intro i
      rw [enb, List.mem_cons, h.nb, e1]
      by_cases hi : i = s.next
      · rw [if_pos hi]; exact ⟨fun _ => ⟨_, rfl⟩, fun _ => Or.inl hi⟩
      · rw [if_neg hi]; exact ⟨fun k => k.resolve_left hi, fun k => Or.inr k⟩
    · rw [enb, List.nodup_cons]
      refine ⟨fun hc => ?_, h.nbd⟩
      obtain ⟨y, hy⟩ := (h.nb _).1 hc
      exact hfresh _ hy
    · intro i y hy; rw [e2] at hy; rw [enx]; have := h.lim1 _ _ hy; omega
    · intro i m hm; rw [enx]
      rcases L i m hm with ⟨rfl, -⟩ | ⟨-, h2⟩
      · omega
      · have := h.lim2 _ _ h2; omega
    · intro i m hm
      rcases L i m hm with ⟨rfl, rfl⟩ | ⟨-, h2⟩
      · exact List.nodup_nil
      · exact h.lids _ _ h2
    · intro i m hm e he; rw [enx]
      rcases L i m hm with ⟨rfl, rfl⟩ | ⟨-, h2⟩
      · cases he
      · have := h.lidlt _ _ h2 e he; omega
    · intro i m hm e he
      rw [e2]
      rcases L i m hm with ⟨rfl, rfl⟩ | ⟨-, h2⟩
      · cases he
      · exact h.fwd _ _ h2 e he
    · intro i y hy k hk
      rw [e2] at hy
      obtain ⟨l, hl, hl'⟩ := h.bwd _ _ hy k hk
      refine ⟨l, ?_, hl'⟩
      rw [e1, if_neg, hl]
      rintro rfl
      exact hfresh _ hl
    · intro i m hm
      rcases L i m hm with ⟨rfl, rfl⟩ | ⟨-, h2⟩
      · exact List.nodup_nil
      · exact h.nd1 _ _ h2

private theorem status_same (s : St) (n : Nat) (v : Bool) : Same s (modNbr s n (fun x => { x with sym := v })) :=
  modNbr_same _ _ _ (fun _ => rfl)

private theorem setStatus_good {env : Env} {s : St} (h : Good s) (hF : Full s) {n : Nat} {x : Nbr} (hx : s.nbr n = some x) (v : Bool) :
    ∃ s', setStatus env s n v = some s' ∧ Good s' ∧ Full s' := by
  unfold setStatus
  rw [hx]
  simp only
  by_cases hv : v = true ∧ x.sym = false
  · rw [if_pos hv]
    cases hl : lookupTwo env s x.addr with
    | none => exact ⟨_, rfl, h.same (status_same s n true), hF.same (status_same s n true)⟩
    | some t =>
      simp only
      obtain ⟨y, hy, -⟩ := lookupTwo_some hl
      obtain ⟨s1, h1, -⟩ := delTwo_eq h hF hy
      obtain ⟨g1, g2⟩ := delTwo_good h hF hy h1
      rw [h1]
      exact ⟨_, rfl, g1.same (status_same s1 n true), g2.same (status_same s1 n true)⟩
  · rw [if_neg hv]
    exact ⟨_, rfl, h.same (status_same s n v), hF.same (status_same s n v)⟩

private theorem lookupTwoMid_some {s : St} {a i : Nat} (h : lookupTwoMid s a = some i) : ∃ t, s.two i = some t ∧ t.addr = a := by
  have := List.find?_some h
  cases ht : s.two i with
  | none => rw [ht] at this; cases this
  | some t => rw [ht] at this; exact ⟨t, rfl, by simpa using this⟩

private theorem midTwo_good {s : St} (h : Good s) (hF : Full s) (a : Nat) : ∃ s', midTwo s a = some s' ∧ Good s' ∧ Full s' := by
  unfold midTwo
  cases hl : lookupTwoMid s a with
  | none => exact ⟨s, rfl, h, hF⟩
  | some t =>
    simp only
    obtain ⟨y, hy, -⟩ := lookupTwoMid_some hl
    obtain ⟨s1, h1, -⟩ := delTwo_eq h hF hy
    obtain ⟨g1, g2⟩ := delTwo_good h hF hy h1
    exact ⟨s1, h1, g1, g2⟩

private theorem expire_find {s : St} (h : Good s) {n lid now : Nat} (he : Enabled s (.expire n lid now)) :
    ∃ x e, s.nbr n = some x ∧ x.list2.find? (fun e => e.lid == lid) = some e ∧ e ∈ x.list2 ∧ e.lid = lid ∧
      ∃ d, e.timer = some d ∧ d ≤ now := by
  obtain ⟨x, e, d, hx, hm, hl, ht, hd⟩ := he
  cases hf : x.list2.find? (fun e => e.lid == lid) with
  | none => exact absurd (by simp [hl]) (List.find?_eq_none.1 hf e hm)
  | some e' =>
    have h1 : e'.lid = lid := by simpa using List.find?_some hf
    have h2 := List.mem_of_find?_eq_some hf
    have := lid_inj h hx h2 hm (h1.trans hl.symm)
    subst this
    exact ⟨x, e', hx, hf, h2, h1, d, ht, hd⟩

private theorem step_good {s : St} (h : Good s) (hF : Full s) (op : Op) (he : Enabled s op) :
    ∃ s', step s op = some s' ∧ Good s' ∧ Full s' := by
  cases op with
  | hello env lq first n now vtime will ms =>
    obtain ⟨henv, x, hx⟩ := he
    obtain ⟨s', h1, h2, h3, -⟩ := hello_good henv (lq := lq) (first := first) (now := now) (vtime := vtime) (will := will) h hF hx ms
    exact ⟨s', h1, h2, h3⟩
  | expire n lid now =>
    obtain ⟨x, e, hx, hf, hm, -, -⟩ := expire_find h he
    obtain ⟨s', h1, -⟩ := unlink_eq h hx hm
    obtain ⟨g1, g2⟩ := unlink_good h hF hx hm h1
    refine ⟨s', ?_, g1, g2⟩
    show (match s.nbr n with | none => _ | some x => _) = _
    rw [hx]; simp only; rw [hf]; exact h1
  | del a => exact delNbr_good h hF a
  | ins a => exact ⟨_, rfl, insNbr_good h hF a⟩
  | status env n sym => obtain ⟨x, hx⟩ := he; exact setStatus_good h hF hx sym
  | mid a => exact midTwo_good h hF a
  | rename n a =>
    have k : Same s (rename s n a) := modNbr_same _ _ _ (fun _ => rfl)
    exact ⟨_, rfl, h.same k, hF.same k⟩

private theorem reach_good {s : St} (h : Reach s) : Good s ∧ Full s := by
  induction h with
  | init => exact init_good
  | @step s s' op _ he hs ih =>
    obtain ⟨s'', h1, h2, h3⟩ := step_good ih.1 ih.2 op he
    rw [h1] at hs; cases hs
    exact ⟨h2, h3⟩

/-! ### Records through a message -/

/-- The records for a pair are exactly `o`. -/
private def Rep (s : St) (k b : Nat) (o : Option (Option Nat × NbEnt)) : Prop := ∀ r, At s k b r ↔ o = some r

private theorem rep_exists {s : St} (h : Good s) (k b : Nat) : ∃ o, Rep s k b o := by
  by_cases hc : ∃ r, At s k b r
  · obtain ⟨r, hr⟩ := hc
    refine ⟨some r, fun r' => ⟨fun hr' => by rw [at_unique h hr hr'], fun hr' => ?_⟩⟩
    cases hr'; exact hr
  · exact ⟨none, fun r => ⟨fun hr => absurd ⟨r, hr⟩ hc, fun hr => by cases hr⟩⟩

private def C1 (env : Env) (n k b : Nat) (m : Item) : Prop :=
  k = n ∧ env.own m.addr = false ∧ symMpr m = true ∧ b = mainOf env m.addr

private instance (env : Env) (n k b : Nat) (m : Item) : Decidable (C1 env n k b m) := by unfold C1; infer_instance

private def up1 (env : Env) (lq : Bool) (n now vtime k b : Nat) (o : Option (Option Nat × NbEnt)) (m : Item) : Option (Option Nat × NbEnt) :=
  if C1 env n k b m then
    match o with
    | none => some (none, fresh n)
    | some r0 => some (if vtime = 0 then none else some (now + vtime), { r0.2 with path := if lq then BROKEN else r0.2.path })
  else o

private def C2 (env : Env) (n k b : Nat) (m : Item) : Prop :=
  k = n ∧ env.own m.addr = false ∧ symMpr m = true ∧ b = m.addr

private instance (env : Env) (n k b : Nat) (m : Item) : Decidable (C2 env n k b m) := by unfold C2; infer_instance

private def up2 (env : Env) (n c k b : Nat) (o : Option (Option Nat × NbEnt)) (m : Item) : Option (Option Nat × NbEnt) :=
  if C2 env n k b m then o.map (fun r0 => (r0.1, better c m.cost r0.2)) else o

private theorem rep_pass1 {env : Env} (henv : env.Coherent) {lq : Bool} {n now vtime : Nat} {s s' : St} (h : Good s)
    {x : Nbr} (hx : s.nbr n = some x) (m : Item) (hs : pass1 env lq n now vtime s m = some s') {k b : Nat}
    {o : Option (Option Nat × NbEnt)} (ho : Rep s k b o) : Rep s' k b (up1 env lq n now vtime k b o m) := by
  intro r
  rw [at_pass1 henv h hx m hs]
  unfold up1
  by_cases hc : C1 env n k b m
  · rw [if_pos hc, if_pos (show k = n ∧ env.own m.addr = false ∧ symMpr m = true ∧ b = mainOf env m.addr from hc)]
    cases o with
    | none =>
      simp only
      constructor
      · rintro (⟨r0, a1, -⟩ | ⟨-, a2⟩)
        · have := (ho r0).1 a1; cases this
        · rw [a2]
      · intro hr
        refine Or.inr ⟨fun r0 hr0 => ?_, ?_⟩
        · have := (ho r0).1 hr0; cases this
        · cases hr; rfl
    | some r0 =>
      simp only
      constructor
      · rintro (⟨r1, a1, rfl⟩ | ⟨a1, -⟩)
        · have := (ho r1).1 a1; cases this; rfl
        · exact absurd ((ho r0).2 rfl) (a1 r0)
      · intro hr; cases hr
        exact Or.inl ⟨r0, (ho r0).2 rfl, rfl⟩
  · rw [if_neg hc, if_neg (show ¬ (k = n ∧ env.own m.addr = false ∧ symMpr m = true ∧ b = mainOf env m.addr) from hc)]
    exact ho r

private theorem rep_pass2 {env : Env} {n c : Nat} {s s' : St} (h : Good s) {x : Nbr} (hx : s.nbr n = some x) (m : Item)
    (hs : pass2 env n c s m = some s') {k b : Nat} {o : Option (Option Nat × NbEnt)} (ho : Rep s k b o) :
    Rep s' k b (up2 env n c k b o m) := by
  intro r
  rw [at_pass2 h hx m hs]
  unfold up2
  by_cases hc : C2 env n k b m
  · rw [if_pos hc, if_pos (show k = n ∧ env.own m.addr = false ∧ symMpr m = true ∧ b = m.addr from hc)]
    cases o with
    | none =>
      simp only [Option.map_none]
      constructor
      · rintro ⟨r0, a1, -⟩; have := (ho r0).1 a1; cases this
      · intro hr; cases hr
    | some r0 =>
      simp only [Option.map_some]
      constructor
      · rintro ⟨r1, a1, rfl⟩; have := (ho r1).1 a1; cases this; rfl
      · intro hr; cases hr; exact ⟨r0, (ho r0).2 rfl, rfl⟩
  · rw [if_neg hc, if_neg (show ¬ (k = n ∧ env.own m.addr = false ∧ symMpr m = true ∧ b = m.addr) from hc)]
    exact ho r

private theorem rep_loop1 {env : Env} (henv : env.Coherent) {lq : Bool} {n now vtime k b : Nat} (ms : List Item) :
    ∀ (s s' : St) (o : Option (Option Nat × NbEnt)), Good s → Full s → (∃ x, s.nbr n = some x) →
      loop (pass1 env lq n now vtime) s ms = some s' → Rep s k b o → Rep s' k b (ms.foldl (up1 env lq n now vtime k b) o) := by
  induction ms with
  | nil => intro s s' o _ _ _ hs ho; cases hs; exact ho
  | cons m ms ih =>
    rintro s s' o h hF ⟨x, hx⟩ hs ho
    obtain ⟨s1, h1, h2, h3, h4⟩ := pass1_good henv (lq := lq) (now := now) (vtime := vtime) h hF hx m
    unfold loop at hs
    rw [h1] at hs
    exact ih s1 s' _ h2 h3 h4 hs (rep_pass1 henv h hx m h1 ho)

private theorem rep_loop2 {env : Env} {n c k b : Nat} (ms : List Item) :
    ∀ (s s' : St) (o : Option (Option Nat × NbEnt)), Good s → (∃ x, s.nbr n = some x) →
      loop (pass2 env n c) s ms = some s' → Rep s k b o → Rep s' k b (ms.foldl (up2 env n c k b) o) := by
  induction ms with
  | nil => intro s s' o _ _ hs ho; cases hs; exact ho
  | cons m ms ih =>
    rintro s s' o h ⟨x, hx⟩ hs ho
    obtain ⟨s1, h1, h2⟩ := pass2_same (env := env) (c := c) h hx m
    obtain ⟨x', hx', -⟩ := of_lk ((h2.lk n).trans (lk_of hx))
    unfold loop at hs
    rw [h1] at hs
    exact ih s1 s' _ (h.same h2) ⟨x', hx'⟩ hs (rep_pass2 h hx m h1 ho)

/-- The records for a pair after a HELLO. -/
private def after (env : Env) (lq : Bool) (first : Option Nat) (n now vtime will k b : Nat) (ms : List Item) (o : Option (Option Nat × NbEnt)) :
    Option (Option Nat × NbEnt) :=
  if will = 0 then o
  else match lq, first with
    | true, some c => (ms.map (rewritten env)).foldl (up2 env n c k b) (ms.foldl (up1 env lq n now vtime k b) o)
    | _, _ => ms.foldl (up1 env lq n now vtime k b) o

private theorem rep_hello {env : Env} (henv : env.Coherent) {lq : Bool} {first : Option Nat} {n now vtime will k b : Nat} {s s' : St}
    (h : Good s) (hF : Full s) {ms : List Item} (hs : hello env lq first n now vtime will s ms = some s')
    {o : Option (Option Nat × NbEnt)} (ho : Rep s k b o) : Rep s' k b (after env lq first n now vtime will k b ms o) := by
  unfold hello at hs
  cases hx : s.nbr n with
  | none => rw [hx] at hs; cases hs
  | some x =>
    rw [hx] at hs
    simp only at hs
    have km := modNbr_same s n (fun x => { x with will := will }) (fun _ => rfl)
    have hx1 : (modNbr s n (fun x => { x with will := will })).nbr n = some { x with will := will } := by
      unfold modNbr; simp [hx]
    have ho1 : Rep (modNbr s n (fun x => { x with will := will })) k b o := by
      intro r; rw [at_modNbr (f := fun x => { x with will := will }) (fun _ => rfl)]; exact ho r
    unfold after
    by_cases hw : will = 0
    · rw [if_pos hw] at hs ⊢; cases hs; exact ho1
    · rw [if_neg hw] at hs ⊢
      unfold processNbrs at hs
      obtain ⟨s1, h1, h2, h3, h4⟩ := loop_pass1 henv (lq := lq) (now := now) (vtime := vtime) ms _ (h.same km) (hF.same km) ⟨_, hx1⟩
      rw [h1] at hs
      simp only at hs
      have hr := rep_loop1 henv ms _ s1 o (h.same km) (hF.same km) ⟨_, hx1⟩ h1 ho1
      cases lq with
      | false => cases first <;> (cases hs; exact hr)
      | true =>
        cases first with
        | none => cases hs; exact hr
        | some c => exact rep_loop2 _ s1 s' _ h2 h4 hs hr

private theorem lists_iff {env : Env} {ms : List Item} {n a : Nat} : Lists env ms a ↔ ∃ m ∈ ms, C1 env n n a m := by
  unfold Lists C1 symMpr mainOf
  constructor
  · rintro ⟨m, hm, a1, a2, a3⟩
    exact ⟨m, hm, rfl, a1, by rcases a2 with a2 | a2 <;> simp [a2], a3.symm⟩
  · rintro ⟨m, hm, -, a1, a2, a3⟩
    exact ⟨m, hm, a1, by simpa using a2, a3.symm⟩

private theorem fold1_unlisted {env : Env} {lq : Bool} {n now vtime k b : Nat} (ms : List Item) :
    ∀ o, (∀ m ∈ ms, ¬ C1 env n k b m) → ms.foldl (up1 env lq n now vtime k b) o = o := by
  induction ms with
  | nil => intro o _; rfl
  | cons m ms ih =>
    intro o h
    rw [List.foldl_cons]
    have : up1 env lq n now vtime k b o m = o := if_neg (h m (List.mem_cons_self ..))
    rw [this]
    exact ih o (fun m' hm' => h m' (List.mem_cons_of_mem _ hm'))

private theorem fold2_unlisted {env : Env} {n c k b : Nat} (ms : List Item) :
    ∀ o, (∀ m ∈ ms, ¬ C2 env n k b m) → ms.foldl (up2 env n c k b) o = o := by
  induction ms with
  | nil => intro o _; rfl
  | cons m ms ih =>
    intro o h
    rw [List.foldl_cons]
    have : up2 env n c k b o m = o := if_neg (h m (List.mem_cons_self ..))
    rw [this]
    exact ih o (fun m' hm' => h m' (List.mem_cons_of_mem _ hm'))

/-- The second loop sees an entry for `b` only if the first one did. -/
private theorem c2_c1 {env : Env} {n k b : Nat} {m : Item} (h : C2 env n k b (rewritten env m)) : C1 env n k b m := by
  obtain ⟨a1, a2, a3, a4⟩ := h
  unfold rewritten at a2 a3 a4
  by_cases ho : env.own m.addr = true
  · rw [if_pos ho, ho] at a2; cases a2
  · rw [if_neg ho] at a3 a4
    exact ⟨a1, by simpa using ho, a3, a4⟩

private theorem after_unlisted {env : Env} {lq : Bool} {first : Option Nat} {n now vtime will k b : Nat} {ms : List Item}
    (h : will = 0 ∨ k ≠ n ∨ ¬ Lists env ms b) (o : Option (Option Nat × NbEnt)) : after env lq first n now vtime will k b ms o = o := by
  unfold after
  by_cases hw : will = 0
  · rw [if_pos hw]
  · rw [if_neg hw]
    have hno : ∀ m ∈ ms, ¬ C1 env n k b m := by
      intro m hm hc
      rcases h with h | h | h
      · exact hw h
      · exact h hc.1
      · refine h ((lists_iff (n := n)).2 ⟨m, hm, ?_⟩)
        exact ⟨rfl, hc.2⟩
    have hno2 : ∀ m ∈ ms.map (rewritten env), ¬ C2 env n k b m := by
      intro m hm hc
      obtain ⟨m0, hm0, rfl⟩ := List.mem_map.1 hm
      exact hno m0 hm0 (c2_c1 hc)
    cases lq <;> cases first <;> simp only [fold1_unlisted ms o hno, fold2_unlisted _ o hno2]

private theorem up1_some {env : Env} {lq : Bool} {n now vtime k b : Nat} {o : Option (Option Nat × NbEnt)} {m : Item}
    (h : o ≠ none ∨ C1 env n k b m) : up1 env lq n now vtime k b o m ≠ none := by
  unfold up1
  by_cases hc : C1 env n k b m
  · rw [if_pos hc]; cases o <;> simp
  · rw [if_neg hc]; exact h.resolve_right hc

private theorem fold1_some {env : Env} {lq : Bool} {n now vtime k b : Nat} (ms : List Item) :
    ∀ o, (o ≠ none ∨ ∃ m ∈ ms, C1 env n k b m) → ms.foldl (up1 env lq n now vtime k b) o ≠ none := by
  induction ms with
  | nil =>
    rintro o (h | ⟨m, hm, -⟩)
    · exact h
    · cases hm
  | cons m ms ih =>
    intro o h
    rw [List.foldl_cons]
    refine ih _ ?_
    rcases h with h | ⟨m', hm', h⟩
    · exact Or.inl (up1_some (Or.inl h))
    · rcases List.mem_cons.1 hm' with rfl | hm'
      · exact Or.inl (up1_some (Or.inr h))
      · exact Or.inr ⟨m', hm', h⟩

private theorem up2_some {env : Env} {n c k b : Nat} {o : Option (Option Nat × NbEnt)} {m : Item} : up2 env n c k b o m = none ↔ o = none := by
  unfold up2
  split
  · cases o <;> simp
  · rfl

private theorem fold2_some {env : Env} {n c k b : Nat} (ms : List Item) :
    ∀ o, ms.foldl (up2 env n c k b) o = none ↔ o = none := by
  induction ms with
  | nil => intro o; rfl
  | cons m ms ih => intro o; rw [List.foldl_cons, ih, up2_some]

private theorem fold2_timer {env : Env} {n c k b : Nat} (ms : List Item) :
    ∀ r, ∃ e, ms.foldl (up2 env n c k b) (some r) = some (r.1, e) := by
  induction ms with
  | nil => intro r; exact ⟨r.2, rfl⟩
  | cons m ms ih =>
    intro r
    rw [List.foldl_cons]
    unfold up2
    split
    · rw [Option.map_some]
      obtain ⟨e, he⟩ := ih (r.1, better c m.cost r.2)
      exact ⟨e, he⟩
    · exact ih r

/-! ## C81 -/

/-- **C81** (partial), no dangling entry: in every state reached by HELLO messages, timers, new, deleted and renamed neighbours,
neighbours that become symmetric and two-hop neighbours that turn out to be aliases, both lists agree, and none of these operations and no
walk of the MPR calculation touches freed memory.  Not covered: the deletion of the neighbour entry of an alias
(`C81_alias_neighbour_dangles`) and MID sets in which a main address is itself an alias (`C81_alias_chain_dangles`). -/
theorem C81_consistent_partial {s : St} (h : Reach s) :
    Consistent s ∧ mprWalk s = some () ∧ ∀ op, Enabled s op → ∃ s', step s op = some s' := by
  obtain ⟨hg, hF⟩ := reach_good h
  refine ⟨good_consistent hg hF, ?_, ?_⟩
  · unfold mprWalk
    rw [if_pos]
    rw [List.all_eq_true]
    intro i hi
    obtain ⟨y, hy⟩ := (hg.tw i).1 hi
    obtain ⟨t, ht, -⟩ := of_bk hy
    rw [ht]
    simp only [Option.any_some]
    rw [List.all_eq_true]
    intro b hb
    obtain ⟨x, hx, -⟩ := (good_consistent hg hF).toNbr i t b ht hb
    rw [hx]; rfl
  · intro op he
    obtain ⟨s', h1, -⟩ := step_good hg hF op he
    exact ⟨s', h1⟩

/-- **C81**, a HELLO adds exactly what it lists: afterwards the sender leads to an address if it did before or the message lists it (and its
willingness is not zero); nothing changes for other neighbours, and records of addresses that are not listed are
untouched. -/
theorem C81_hello {s s' : St} (h : Reach s) (env : Env) (lq : Bool) (first : Option Nat) (n now vtime will : Nat) (ms : List Item)
    (he : Enabled s (.hello env lq first n now vtime will ms)) (hs : step s (.hello env lq first n now vtime will ms) = some s') (k a : Nat) :
    ((∃ r, At s' k a r) ↔ (∃ r, At s k a r) ∨ (k = n ∧ will ≠ 0 ∧ Lists env ms a)) ∧
    (k ≠ n ∨ will = 0 ∨ ¬ Lists env ms a → ∀ r, At s' k a r ↔ At s k a r) := by
  obtain ⟨hg, hF⟩ := reach_good h
  obtain ⟨o, ho⟩ := rep_exists hg k a
  have hr := rep_hello he.1 hg hF (k := k) (b := a) hs ho
  have hframe : k ≠ n ∨ will = 0 ∨ ¬ Lists env ms a → ∀ r, At s' k a r ↔ At s k a r := by
    intro hc r
    rw [after_unlisted (by rcases hc with hc | hc | hc; exact Or.inr (Or.inl hc); exact Or.inl hc; exact Or.inr (Or.inr hc))] at hr
    rw [hr r, ho r]
  refine ⟨?_, hframe⟩
  by_cases hc : k ≠ n ∨ will = 0 ∨ ¬ Lists env ms a
  · have hno : ¬ (k = n ∧ will ≠ 0 ∧ Lists env ms a) := by
      rintro ⟨a1, a2, a3⟩
      rcases hc with hc | hc | hc
      · exact hc a1
      · exact a2 hc
      · exact hc a3
    constructor
    · rintro ⟨r, hr'⟩; exact Or.inl ⟨r, (hframe hc r).1 hr'⟩
    · rintro (⟨r, hr'⟩ | hh)
      · exact ⟨r, (hframe hc r).2 hr'⟩
      · exact absurd hh hno
  · have hyes : k = n ∧ will ≠ 0 ∧ Lists env ms a := by
      refine ⟨Classical.not_not.1 fun hh => hc (Or.inl hh), fun hh => hc (Or.inr (Or.inl hh)), Classical.not_not.1 fun hh => hc (Or.inr (Or.inr hh))⟩
    refine ⟨fun _ => Or.inr hyes, fun _ => ?_⟩
    obtain ⟨rfl, hw, hl⟩ := hyes
    have h1 : ms.foldl (up1 env lq k now vtime k a) o ≠ none := fold1_some ms o (Or.inr (lists_iff.1 hl))
    have h2 : after env lq first k now vtime will k a ms o ≠ none := by
      unfold after
      rw [if_neg hw]
      cases lq with
      | false => cases first <;> exact h1
      | true =>
        cases first with
        | none => exact h1
        | some c => simp only; rw [Ne, fold2_some]; exact h1
    cases ho' : after env lq first k now vtime will k a ms o with
    | none => exact absurd ho' h2
    | some r => exact ⟨r, (hr r).2 ho'⟩

/-- **C81**, deletions: deleting a neighbour removes the records of that neighbour and no others; a neighbour that becomes symmetric is removed as
two-hop neighbour, and so is a new alias. -/
theorem C81_deletions {s s' : St} (h : Reach s) :
    (∀ a, step s (.del a) = some s' → ∃ dead : Nat → Prop, (∀ n, dead n → ∃ x, s.nbr n = some x ∧ x.addr = a) ∧
      ((∃ n ∈ s.nbrs, ∃ x, s.nbr n = some x ∧ x.addr = a) → ∃ n ∈ s.nbrs, dead n ∧ s'.nbr n = none) ∧
      ∀ k b r, At s' k b r ↔ ¬ dead k ∧ At s k b r) ∧
    (∀ (env : Env) n x, env.Coherent → s.nbr n = some x → x.sym = false → env.main x.addr = none → step s (.status env n true) = some s' →
      ∀ k b r, At s' k b r ↔ b ≠ x.addr ∧ At s k b r) ∧
    (∀ a, step s (.mid a) = some s' → ∀ k b r, At s' k b r ↔ b ≠ a ∧ At s k b r) := by
  obtain ⟨hg, hF⟩ := reach_good h
  have noentry : ∀ a, (∀ i ∈ s.twos, ∀ t, s.two i = some t → t.addr ≠ a) → ∀ k b r, At s k b r ↔ b ≠ a ∧ At s k b r := by
    intro a hno k b r
    refine ⟨fun hh => ⟨?_, hh⟩, fun hh => hh.2⟩
    obtain ⟨x', e', t', a1, a2, a3, a4, -⟩ := hh
    rw [← a4]
    exact hno _ ((hg.tw _).2 ⟨_, bk_of a3⟩) t' a3
  refine ⟨?_, ?_, ?_⟩
  · intro a hs
    have hs1 : delNbr s a = some s' := hs
    unfold delNbr at hs1
    cases hl : lookupNbr s a with
    | none =>
      rw [hl] at hs1; cases hs1
      refine ⟨fun _ => False, fun n hn => hn.elim, ?_, fun k b r => ⟨fun hh => ⟨fun hc => hc, hh⟩, fun hh => hh.2⟩⟩
      rintro ⟨n, hn, x, hx, hxa⟩
      refine absurd ?_ (List.find?_eq_none.1 hl n hn)
      rw [hx]; simp [hxa]
    | some n =>
      rw [hl] at hs1
      simp only at hs1
      have hp := List.find?_some hl
      have hm := List.mem_of_find?_eq_some hl
      cases hx : s.nbr n with
      | none => rw [hx] at hp; cases hp
      | some x =>
        rw [hx] at hs1 hp
        simp only at hs1
        have hxa : x.addr = a := by simpa using hp
        -- records through the loop
        have key : ∀ (l : List L2) (s0 s1 : St) (x0 : Nbr), Good s0 → Full s0 → s0.nbr n = some x0 → x0.list2 = l →
            loop (unlink n) s0 l = some s1 → (∀ k b r, k ≠ n → (At s1 k b r ↔ At s0 k b r)) := by
          intro l
          induction l with
          | nil => intro s0 s1 x0 _ _ _ _ hs0 k b r _; cases hs0; exact Iff.rfl
          | cons e l ih =>
            intro s0 s1 x0 g0 f0 hx0 hl0 hs0 k b r hk
            have he : e ∈ x0.list2 := by rw [hl0]; exact List.mem_cons_self ..
            obtain ⟨s2, h1, -, -, -, h5, t, ht, -⟩ := unlink_eq g0 hx0 he
            obtain ⟨g1, f1⟩ := unlink_good g0 f0 hx0 he h1
            unfold loop at hs0
            rw [h1] at hs0
            have hfil : x0.list2.filter (fun y => y.lid != e.lid) = l := by
              have hnd := g0.lids _ _ (lk_of hx0)
              rw [List.map_map, hl0] at hnd
              rw [hl0, List.filter_cons_of_neg (by simp)]
              rw [List.map_cons, List.nodup_cons] at hnd
              refine List.filter_eq_self.2 ?_
              intro y hy
              refine bne_iff_ne.2 ?_
              intro hc
              exact hnd.1 (List.mem_map.2 ⟨y, hy, hc⟩)
            rw [ih s2 s1 { x0 with list2 := l } g1 f1 (by rw [h5, if_pos rfl, hfil]) rfl hs0 k b r hk, at_unlink g0 hx0 he ht h1]
            exact ⟨fun hh => hh.2, fun hh => ⟨fun hc => hk hc.1, hh⟩⟩
        obtain ⟨s1, h1, h2, h3, h4, -⟩ := loop_unlink x.list2 s x hg hF hx rfl
        rw [h1] at hs1
        cases hs1
        refine ⟨fun k => k = n, ?_, ?_, ?_⟩
        · rintro k rfl; exact ⟨x, hx, hxa⟩
        · intro _
          refine ⟨n, hm, rfl, ?_⟩
          unfold freeNbr; simp
        · intro k b r
          rw [at_freeNbr]
          constructor
          · rintro ⟨hk, hh⟩; exact ⟨hk, (key _ s s1 x hg hF hx rfl h1 k b r hk).1 hh⟩
          · rintro ⟨hk, hh⟩; exact ⟨hk, (key _ s s1 x hg hF hx rfl h1 k b r hk).2 hh⟩
  · intro env n x henv hx hsym hmain hs k b r
    have hs1 : setStatus env s n true = some s' := hs
    unfold setStatus at hs1
    rw [hx] at hs1
    simp only at hs1
    rw [if_pos ⟨trivial, hsym⟩] at hs1
    cases hl : lookupTwo env s x.addr with
    | none =>
      rw [hl] at hs1; cases hs1
      rw [at_modNbr (f := fun x => { x with sym := true }) (fun _ => rfl)]
      exact noentry x.addr (lookupTwo_none hl) k b r
    | some t =>
      rw [hl] at hs1
      simp only at hs1
      obtain ⟨y, hy, hya⟩ := lookupTwo_some hl
      have hyx : y.addr = x.addr := by
        rcases hya with hya | hya
        · exact hya
        · have := henv.back _ _ hya; rw [hmain] at this; cases this
      obtain ⟨s1, h1, -⟩ := delTwo_eq hg hF hy
      rw [h1] at hs1; cases hs1
      rw [at_modNbr (f := fun x => { x with sym := true }) (fun _ => rfl), at_delTwo hg hF hy h1, hyx]
  · intro a hs k b r
    have hs1 : midTwo s a = some s' := hs
    unfold midTwo at hs1
    cases hl : lookupTwoMid s a with
    | none =>
      rw [hl] at hs1; cases hs1
      refine noentry a ?_ k b r
      intro i hi t ht hc
      refine absurd ?_ (List.find?_eq_none.1 hl i hi)
      rw [ht]; simp [hc]
    | some t =>
      rw [hl] at hs1
      obtain ⟨y, hy, hya⟩ := lookupTwoMid_some hl
      rw [at_delTwo hg hF hy hs1, hya]

/-- No alias, no own address in the message. -/
def plain : Env := { own := fun a => a == 100, main := fun _ => none, aliases := fun _ => [], hash := fun _ => 0 }

theorem plain_coherent : plain.Coherent := ⟨fun _ _ h => (by cases h), fun _ _ h => (by cases h)⟩

/-- a neighbour 7 announces the two-hop neighbours 20 and 21 (and this host, 100) -/
def demo : Op := .hello plain true (some 5) 0 1000 60 3 [⟨20, 1, 10⟩, ⟨100, 1, 10⟩, ⟨21, 2, 30⟩, ⟨22, 0, 9⟩]

/-- what can be seen of a state -/
def view (s : St) : List (Nat × List (Nat × Option Nat)) × List (Nat × Int × List NbEnt) :=
  (s.nbrs.filterMap (fun n => (s.nbr n).map (fun x => (x.addr, x.list2.map (fun e => (e.two, e.timer))))),
   s.twos.filterMap (fun i => (s.two i).map (fun t => (t.addr, t.cnt, t.nb))))

example : Reach (insNbr init 7) := Reach.step (.ins 7) Reach.init trivial rfl

example : Enabled (insNbr init 7) demo := ⟨plain_coherent, ⟨7, false, 0, []⟩, rfl⟩

example : (step (insNbr init 7) demo).map view =
    some ([(7, [(3, none), (1, none)])], [(21, 1, [⟨0, 30, 35, 35⟩]), (20, 1, [⟨0, 10, 15, 15⟩])]) := by rfl

/-- **C81 is false** of the deletion of an alias's neighbour entry: a neighbour 7 leads to 20; then 7 turns out to be an
alias of the neighbour 8, and its entry is freed (mid_set.c 232-247).  The two-hop neighbour 20 still points to it: the walk of the MPR
calculation, which follows at once, reads freed memory, and so does deleting the two-hop neighbour. -/
theorem C81_alias_neighbour_dangles :
    ∃ s, (hello plain true (some 5) 0 1000 60 3 (insNbr (insNbr init 7) 8) [⟨20, 1, 10⟩] = some s ∧
      Reach s ∧ mprWalk (midNbr s 7 8) = none ∧ midTwo (midNbr s 7 8) 20 = none) := by
  refine ⟨_, rfl, ?_, by decide, by decide⟩
  exact Reach.step (.hello plain true (some 5) 0 1000 60 3 [⟨20, 1, 10⟩])
    (Reach.step (.ins 8) (Reach.step (.ins 7) Reach.init trivial rfl) trivial rfl) ⟨plain_coherent, ⟨7, false, 0, []⟩, rfl⟩ rfl

/-- 31 is an alias of 30, and 30 one of 20. -/
def chain : Env :=
  { own := fun _ => false, main := fun a => if a = 31 then some 30 else if a = 30 then some 20 else none
    aliases := fun m => if m = 30 then [31] else if m = 20 then [30] else [], hash := fun _ => 0 }

/-- **C81 is false** when a main address is itself an alias: the neighbour lists 20 and 31; 31 is translated to 30, which finds the entry of 20, and
the neighbour is linked to it twice.  A timer removes one entry from its list but both from the other one; when 20 becomes a
neighbour its entry is freed although the list of the first neighbour still contains it, and the next HELLO reads
freed memory. -/
theorem C81_alias_chain_dangles :
    ∃ s1 s2 s3 s4 : St,
      hello chain true (some 5) 0 1000 60 3 (insNbr (insNbr init 7) 20) [⟨20, 1, 10⟩, ⟨31, 1, 10⟩] = some s1 ∧
      hello chain true (some 5) 0 1010 60 3 s1 [⟨20, 1, 10⟩] = some s2 ∧
      Enabled s2 (.expire 0 4 1070) ∧ step s2 (.expire 0 4 1070) = some s3 ∧
      setStatus chain s3 1 true = some s4 ∧
      hello chain true (some 5) 0 1080 60 3 s4 [⟨20, 1, 10⟩] = none := by
  refine ⟨_, _, _, _, rfl, rfl, ?_, rfl, rfl, by decide⟩
  exact ⟨_, ⟨4, 2, some 1070⟩, 1070, rfl, by decide, rfl, rfl, by decide⟩

/-! ## C82 -/

/-- **C82** (partial), a two-hop neighbour that is listed again is kept for the announced time: the validity timer of the pair is set to it.
Not so for the first time (`C82_first_time_no_timer`). -/
theorem C82_refresh_partial {s s' : St} (h : Reach s) (env : Env) (lq : Bool) (first : Option Nat) (n now vtime will : Nat) (ms : List Item)
    (he : Enabled s (.hello env lq first n now vtime will ms)) (hs : step s (.hello env lq first n now vtime will ms) = some s')
    (hw : will ≠ 0) (hv : vtime ≠ 0) (a : Nat) (hl : Lists env ms a) (hbefore : ∃ r, At s n a r) :
    ∃ e, At s' n a (some (now + vtime), e) := by
  obtain ⟨hg, hF⟩ := reach_good h
  obtain ⟨o, ho⟩ := rep_exists hg n a
  have hr := rep_hello he.1 hg hF (k := n) (b := a) hs ho
  obtain ⟨r0, hr0⟩ := hbefore
  have hor := (ho r0).1 hr0
  have key : ∀ (ms : List Item) (r : Option Nat × NbEnt), (r.1 = some (now + vtime) ∨ ∃ m ∈ ms, C1 env n n a m) →
      ∃ e, ms.foldl (up1 env lq n now vtime n a) (some r) = some (some (now + vtime), e) := by
    intro ms
    induction ms with
    | nil =>
      rintro r (hh | ⟨m, hm, -⟩)
      · exact ⟨r.2, by rw [← hh]; rfl⟩
      · cases hm
    | cons m ms ih =>
      intro r hh
      rw [List.foldl_cons]
      unfold up1
      by_cases hc : C1 env n n a m
      · rw [if_pos hc]
        exact ih _ (Or.inl (by simp only [if_neg hv]))
      · rw [if_neg hc]
        refine ih r ?_
        rcases hh with hh | ⟨m', hm', hh⟩
        · exact Or.inl hh
        · rcases List.mem_cons.1 hm' with rfl | hm'
          · exact absurd hh hc
          · exact Or.inr ⟨m', hm', hh⟩
  obtain ⟨e, he1⟩ := key ms r0 (Or.inr (lists_iff.1 hl))
  rw [← hor] at he1
  have : ∃ e', after env lq first n now vtime will n a ms o = some (some (now + vtime), e') := by
    unfold after
    rw [if_neg hw]
    cases lq with
    | false => cases first <;> exact ⟨e, he1⟩
    | true =>
      cases first with
      | none => exact ⟨e, he1⟩
      | some c =>
        simp only
        rw [he1]
        exact fold2_timer _ _
  obtain ⟨e', he'⟩ := this
  exact ⟨e', (hr _).2 he'⟩

/-- **C82**, a timer that fires takes away the pair it belongs to and nothing else, not before its time. -/
theorem C82_expire {s s' : St} (h : Reach s) (n lid now : Nat) (he : Enabled s (.expire n lid now))
    (hs : step s (.expire n lid now) = some s') :
    ∃ a d e, At s n a (some d, e) ∧ d ≤ now ∧ ∀ k b r, At s' k b r ↔ ¬ (k = n ∧ b = a) ∧ At s k b r := by
  obtain ⟨hg, hF⟩ := reach_good h
  obtain ⟨x, e, hx, hf, hm, -, d, hd, hdn⟩ := expire_find hg he
  have hs1 : unlink n s e = some s' := by
    have : step s (.expire n lid now) = (match s.nbr n with
      | none => some s
      | some x => match x.list2.find? (fun e => e.lid == lid) with
        | none => some s
        | some e => unlink n s e) := rfl
    rw [hs, hx] at this
    simp only at this
    rw [hf] at this
    exact this.symm
  obtain ⟨s'', -, -, -, -, -, t, ht, -⟩ := unlink_eq hg hx hm
  obtain ⟨b0, hb0⟩ := at_of_link hg hx hm ht
  rw [hd] at hb0
  exact ⟨t.addr, d, b0, hb0, hdn, fun k b r => at_unlink hg hx hm ht hs1 k b r⟩

/-- **C82 is false**: a two-hop neighbour that is listed for the first time (once in the message) gets no validity timer, whatever the
announced time is. -/
theorem C82_first_time_no_timer {s s' : St} (h : Reach s) (env : Env) (lq : Bool) (first : Option Nat) (n now vtime will : Nat)
    (before after' : List Item) (m : Item)
    (he : Enabled s (.hello env lq first n now vtime will (before ++ m :: after')))
    (hs : step s (.hello env lq first n now vtime will (before ++ m :: after')) = some s')
    (hw : will ≠ 0) (a : Nat) (hl : Lists env [m] a) (hl1 : ¬ Lists env before a) (hl2 : ¬ Lists env after' a)
    (hbefore : ¬ ∃ r, At s n a r) :
    ∃ e, At s' n a (none, e) := by
  obtain ⟨hg, hF⟩ := reach_good h
  obtain ⟨o, ho⟩ := rep_exists hg n a
  have hr := rep_hello he.1 hg hF (k := n) (b := a) hs ho
  have hor : o = none := by
    cases o with
    | none => rfl
    | some r => exact absurd ⟨r, (ho r).2 rfl⟩ hbefore
  subst hor
  obtain ⟨m', hm', hc⟩ := (lists_iff (n := n)).1 hl
  rw [List.mem_singleton] at hm'
  subst hm'
  have hn1 : ∀ m ∈ before, ¬ C1 env n n a m := fun m hm hc' => hl1 ((lists_iff (n := n)).2 ⟨m, hm, hc'⟩)
  have hn2 : ∀ m ∈ after', ¬ C1 env n n a m := fun m hm hc' => hl2 ((lists_iff (n := n)).2 ⟨m, hm, hc'⟩)
  have h1 : (before ++ m' :: after').foldl (up1 env lq n now vtime n a) none = some (none, fresh n) := by
    rw [List.foldl_append, fold1_unlisted before _ hn1, List.foldl_cons]
    have : up1 env lq n now vtime n a none m' = some (none, fresh n) := if_pos hc
    rw [this, fold1_unlisted after' _ hn2]
  have : ∃ e', TwoHop.after env lq first n now vtime will n a (before ++ m' :: after') none = some (none, e') := by
    unfold TwoHop.after
    rw [if_neg hw]
    cases lq with
    | false => cases first <;> exact ⟨_, h1⟩
    | true =>
      cases first with
      | none => exact ⟨_, h1⟩
      | some c =>
        simp only
        rw [h1]
        exact fold2_timer _ _
  obtain ⟨e', he'⟩ := this
  exact ⟨e', (hr _).2 he'⟩

/-- Operations that say nothing about the pair: timers; messages of others; messages of the neighbour that do not list the address (or
list it as lost); new neighbours and changes of addresses. -/
def Spares (n a : Nat) : Op → Prop
  | .hello env _ _ k _ _ will ms => k ≠ n ∨ will = 0 ∨ ¬ Lists env ms a
  | .expire .. => True
  | .ins _ => True
  | .rename .. => True
  | _ => False

/-- A sequence of operations. -/
inductive Run : St → List Op → St → Prop where
  | nil (s : St) : Run s [] s
  | cons {s s1 s' : St} {op : Op} {ops : List Op} : Enabled s op → step s op = some s1 → Run s1 ops s' → Run s (op :: ops) s'

/-- **C82 is false**: a pair without a timer stays for ever, however much time passes and however often the neighbour says that
it has no such neighbour any more, until the neighbour itself goes, lists the address again, or the address becomes a neighbour or
an alias. -/
theorem C82_stays_for_ever {s s' : St} (h : Reach s) (n a : Nat) (e : NbEnt) (hat : At s n a (none, e)) (ops : List Op)
    (hsp : ∀ op ∈ ops, Spares n a op) (hrun : Run s ops s') : At s' n a (none, e) := by
  induction hrun with
  | nil => exact hat
  | @cons s s1 s' op ops hen hst _ ih =>
    refine ih (Reach.step op h hen hst) ?_ (fun o ho => hsp o (List.mem_cons_of_mem _ ho))
    have hop := hsp op (List.mem_cons_self ..)
    cases op with
    | hello env lq first k now vtime will ms =>
      refine ((C81_hello h env lq first k now vtime will ms hen hst n a).2 ?_ (none, e)).2 hat
      rcases hop with hop | hop
      · exact Or.inl (Ne.symm hop)
      · exact Or.inr hop
    | expire k lid now =>
      obtain ⟨b, d, e', h1, h2, h3⟩ := C82_expire h k lid now hen hst
      refine (h3 n a (none, e)).2 ⟨?_, hat⟩
      rintro ⟨rfl, rfl⟩
      have := at_unique (reach_good h).1 hat h1
      cases this
    | del a => exact hop.elim
    | ins b =>
      have hs1 : insNbr s b = s1 := by injection hst
      rw [← hs1]
      obtain ⟨hg, -⟩ := reach_good h
      unfold insNbr
      cases lookupNbr s b with
      | some _ => exact hat
      | none =>
        obtain ⟨x, e0, t, a1, a2⟩ := hat
        refine ⟨x, e0, t, ?_, a2⟩
        simp only
        rw [if_neg, a1]
        rintro rfl
        have := hg.lim2 _ _ (lk_of a1)
        omega
    | status => exact hop.elim
    | mid => exact hop.elim
    | rename k b =>
      have hs1 : rename s k b = s1 := by injection hst
      rw [← hs1]
      unfold rename
      rw [at_modNbr (f := fun x => { x with addr := b }) (fun _ => rfl)]
      exact hat

/-- a neighbour lists 20 once; an hour later, after it has said that 20 is lost, 20 is still there -/
example : ((step (insNbr init 7) demo).bind (fun s =>
    step s (.hello plain true (some 5) 0 3601000 60 3 [⟨20, 0, 10⟩, ⟨21, 1, 10⟩]))).map view =
    some ([(7, [(3, some 3601060), (1, none)])], [(21, 1, [⟨0, 10, 15, 15⟩]), (20, 1, [⟨0, 10, 15, 15⟩])]) := by rfl

/-! ## C83 -/

private theorem better_path (c w : Nat) (e : NbEnt) :
    (better c w e).path ≤ e.path ∧ (better c w e).path ≤ (c + w) % 4294967296 ∧
    ((better c w e).path = e.path ∧ better c w e = e ∨
     (better c w e).path = (c + w) % 4294967296 ∧ (better c w e).second = w ∧ (better c w e).saved = (c + w) % 4294967296) := by
  unfold better
  by_cases h : (c + w) % 4294967296 < e.path
  · rw [if_pos h]; exact ⟨Nat.le_of_lt h, Nat.le_refl _, Or.inr ⟨rfl, rfl, rfl⟩⟩
  · rw [if_neg h]; exact ⟨Nat.le_refl _, by omega, Or.inl ⟨rfl, rfl⟩⟩

private theorem fold2_best {env : Env} {n c b : Nat} (ms : List Item) :
    ∀ (t : Option Nat) (e : NbEnt), ∃ e', ms.foldl (up2 env n c n b) (some (t, e)) = some (t, e') ∧ e'.path ≤ e.path ∧
      (∀ m ∈ ms, C2 env n n b m → e'.path ≤ (c + m.cost) % 4294967296) ∧
      (e' = e ∨ ∃ m ∈ ms, C2 env n n b m ∧ e'.path = (c + m.cost) % 4294967296 ∧ e'.second = m.cost ∧ e'.saved = e'.path) := by
  induction ms with
  | nil => intro t e; exact ⟨e, rfl, Nat.le_refl _, fun m hm => (by cases hm), Or.inl rfl⟩
  | cons m ms ih =>
    intro t e
    rw [List.foldl_cons]
    unfold up2
    by_cases hc : C2 env n n b m
    · rw [if_pos hc, Option.map_some]
      obtain ⟨e', h1, h2, h3, h4⟩ := ih t (better c m.cost e)
      obtain ⟨b1, b2, b3⟩ := better_path c m.cost e
      refine ⟨e', h1, Nat.le_trans h2 b1, ?_, ?_⟩
      · intro m' hm' hc'
        rcases List.mem_cons.1 hm' with rfl | hm'
        · exact Nat.le_trans h2 b2
        · exact h3 m' hm' hc'
      · rcases h4 with rfl | ⟨m', hm', h4⟩
        · rcases b3 with ⟨-, b4⟩ | ⟨b4, b5, b6⟩
          · exact Or.inl b4
          · exact Or.inr ⟨m, List.mem_cons_self .., hc, b4, b5, b6.trans b4.symm⟩
        · exact Or.inr ⟨m', List.mem_cons_of_mem _ hm', h4⟩
    · rw [if_neg hc]
      obtain ⟨e', h1, h2, h3, h4⟩ := ih t e
      refine ⟨e', h1, h2, ?_, ?_⟩
      · intro m' hm' hc'
        rcases List.mem_cons.1 hm' with rfl | hm'
        · exact absurd hc' hc
        · exact h3 m' hm' hc'
      · rcases h4 with h4 | ⟨m', hm', h4⟩
        · exact Or.inl h4
        · exact Or.inr ⟨m', List.mem_cons_of_mem _ hm', h4⟩

private theorem fold1_path {env : Env} {n now vtime b : Nat} (ms : List Item) :
    ∀ o, (∃ m ∈ ms, C1 env n n b m) ∨ (∃ r, o = some r ∧ r.2.path = BROKEN) →
      ∃ r, ms.foldl (up1 env true n now vtime n b) o = some r ∧ r.2.path = BROKEN := by
  induction ms with
  | nil =>
    rintro o (⟨m, hm, -⟩ | h)
    · cases hm
    · exact h
  | cons m ms ih =>
    intro o h
    rw [List.foldl_cons]
    refine ih _ ?_
    unfold up1
    by_cases hc : C1 env n n b m
    · rw [if_pos hc]
      cases o with
      | none => exact Or.inr ⟨_, rfl, rfl⟩
      | some r => exact Or.inr ⟨_, rfl, rfl⟩
    · rw [if_neg hc]
      rcases h with ⟨m', hm', h⟩ | h
      · rcases List.mem_cons.1 hm' with rfl | hm'
        · exact absurd h hc
        · exact Or.inl ⟨m', hm', h⟩
      · exact Or.inr h

/-- **C83** the cost of the path to a two-hop neighbour is the best of the message: after a HELLO that lists the address (with link quality, and a
link to the sender of cost `c`), the recorded path cost is no greater than the link cost plus any announced cost, and it is one of these sums
(with the announced cost beside it) unless all of them reach `LINK_COST_BROKEN`. -/
theorem C83_best_path {s s' : St} (h : Reach s) (env : Env) (c n now vtime will : Nat) (ms : List Item)
    (he : Enabled s (.hello env true (some c) n now vtime will ms)) (hs : step s (.hello env true (some c) n now vtime will ms) = some s')
    (hw : will ≠ 0) (a : Nat) (hown : env.own a = false) (hl : Lists env ms a)
    (hc : c ≤ 4194304) (hcost : ∀ m ∈ ms, m.cost ≤ 4194304) :
    ∃ t e, At s' n a (t, e) ∧ e.path ≤ 4194304 ∧
      (∀ m ∈ ms, Lists env [m] a → e.path ≤ c + m.cost) ∧
      (e.path < 4194304 → ∃ m ∈ ms, Lists env [m] a ∧ e.path = c + m.cost ∧ e.second = m.cost ∧ e.saved = c + m.cost) := by
  obtain ⟨hg, hF⟩ := reach_good h
  obtain ⟨o, ho⟩ := rep_exists hg n a
  have hr := rep_hello he.1 hg hF (k := n) (b := a) hs ho
  obtain ⟨⟨t, e0⟩, hr1, hr2⟩ := fold1_path (now := now) (vtime := vtime) ms o (Or.inl ((lists_iff (n := n)).1 hl))
  obtain ⟨e, h1, h2, h3, h4⟩ := fold2_best (env := env) (n := n) (c := c) (b := a) (ms.map (rewritten env)) t e0
  have hafter : after env true (some c) n now vtime will n a ms o = some (t, e) := by
    unfold after
    rw [if_neg hw]
    simp only
    rw [hr1, h1]
  have hr2' : e0.path = 4194304 := hr2
  have one : ∀ m, Lists env [m] a → C2 env n n a (rewritten env m) := by
    intro m hm
    obtain ⟨m', hm', a1, a2, a3, a4⟩ := (lists_iff (n := n)).1 hm
    rw [List.mem_singleton] at hm'
    subst hm'
    unfold rewritten
    rw [if_neg (by rw [a2]; simp)]
    refine ⟨rfl, ?_, a3, a4⟩
    show env.own (mainOf env m'.addr) = false
    rw [← a4]; exact hown
  have cst : ∀ m, (rewritten env m).cost = m.cost := by intro m; unfold rewritten; split <;> rfl
  refine ⟨t, e, (hr _).2 hafter, by omega, ?_, ?_⟩
  · intro m hm hm1
    have := h3 _ (List.mem_map.2 ⟨m, hm, rfl⟩) (one m hm1)
    rw [cst] at this
    have := hcost m hm
    omega
  · intro hlt
    rcases h4 with rfl | ⟨m', hm', k1, k2, k3, k4⟩
    · omega
    · obtain ⟨m, hm, rfl⟩ := List.mem_map.1 hm'
      have := hcost m hm
      rw [cst] at k2 k3
      refine ⟨m, hm, ?_, by omega, k3, by omega⟩
      exact (lists_iff (n := n)).2 ⟨m, List.mem_singleton.2 rfl, c2_c1 k1⟩

/-- **C83** without a usable link to the sender, the path through it is worth nothing. -/
theorem C83_no_link {s s' : St} (h : Reach s) (env : Env) (n now vtime will : Nat) (ms : List Item)
    (he : Enabled s (.hello env true none n now vtime will ms)) (hs : step s (.hello env true none n now vtime will ms) = some s')
    (hw : will ≠ 0) (a : Nat) (hl : Lists env ms a) : ∃ t e, At s' n a (t, e) ∧ e.path = 4194304 := by
  obtain ⟨hg, hF⟩ := reach_good h
  obtain ⟨o, ho⟩ := rep_exists hg n a
  have hr := rep_hello he.1 hg hF (k := n) (b := a) hs ho
  obtain ⟨⟨t, e0⟩, hr1, hr2⟩ := fold1_path (now := now) (vtime := vtime) ms o (Or.inl ((lists_iff (n := n)).1 hl))
  refine ⟨t, e0, (hr _).2 ?_, hr2⟩
  unfold after
  rw [if_neg hw]
  exact hr1

/-- the same two-hop neighbour listed twice, at costs 30 and 10, through a link of cost 5 -/
example : (step (insNbr init 7) (.hello plain true (some 5) 0 1000 60 3 [⟨20, 1, 30⟩, ⟨20, 1, 10⟩])).map view =
    some ([(7, [(1, some 1060)])], [(20, 1, [⟨0, 10, 15, 15⟩])]) := by rfl

end Verif.TwoHop
