import Verif.ForwardModel
import Verif.NetbufProps
import Verif.DupProps

/-!
# C14: forwarding of flooded messages
-/

namespace Verif.Forward

open Verif.Netbuf

/-! ### Specification -/

/-- going from `b` to `b'`, exactly the messages `acc` were accepted for transmission (by pushes of `m` and
flushes; `C15_netbuf` says what becomes of accepted messages) -/
def Queued (m : List Nat) (b b' : Buf) (acc : List (List Nat)) : Prop :=
  ∃ ops, (∀ op ∈ ops, op = .push m ∨ op = .output) ∧ run b ops = some (b', acc)

/-- may the message be sent on interface number `i`? -/
def Eligible (nd : Node) (m : List Nat) (inIdx i : Nat) (ifc : Iface) : Prop :=
  match ifc.mode with
  | .silent => False
  | .ether => i ≠ inIdx
  | .mesh => 2 ≤ m.getD (4 + nd.ipsize) 0 ∧ m.getD (5 + nd.ipsize) 0 + m.getD (4 + nd.ipsize) 0 ≤ 255

/-! ### Proofs -/

private theorem push_step {b : Buf} {m : List Nat} {r : Nat × Buf} (h : push b m = some r) :
    step b (.push m) = some (r.2, if r.1 = m.length then [m] else []) := by
  simp only [step, h, Option.map_some]

private theorem push_some {b : Buf} (hb : Reachable b) (m : List Nat) : ∃ r, push b m = some r := by
  obtain ⟨b', acc, h, _⟩ := C15_reachable_defined hb [.push m]
  cases hp : push b m with
  | some r => exact ⟨r, rfl⟩
  | none => simp [run, step, hp] at h

private theorem output_some {b : Buf} (hb : Reachable b) : ∃ b', output b = some b' ∧ Reachable b' := by
  obtain ⟨b', acc, h, hr⟩ := C15_reachable_defined hb [.output]
  cases hp : output b with
  | some r =>
    simp [run, step, hp] at h
    exact ⟨r, rfl, by rw [h.1]; exact hr⟩
  | none => simp [run, step, hp] at h

private theorem push_reachable {b : Buf} (hb : Reachable b) {m : List Nat} {r : Nat × Buf} (h : push b m = some r) : Reachable r.2 := by
  obtain ⟨b', acc, h', hr⟩ := C15_reachable_defined hb [.push m]
  simp [run, step, h] at h'
  rw [h'.1]; exact hr

private theorem sendOn_spec (nd : Node) (ifc : Iface) (i inIdx : Nat) (m0 m : List Nat) (hm : m ≠ []) (hr : Reachable ifc.buf)
    (hp : ifc.buf.pending < 65536) :
    ∃ ifc', sendOn ifc (i == inIdx) (isTtl1 nd.ipsize m0) m = some ifc' ∧ ifc'.mode = ifc.mode ∧
      ∃ acc, Queued m ifc.buf ifc'.buf acc ∧
        (Eligible nd m0 inIdx i ifc ∧ (m.length : Int) ≤ ifc.buf.maxsize → acc = [m]) ∧
        (¬ (Eligible nd m0 inIdx i ifc ∧ (m.length : Int) ≤ ifc.buf.maxsize) → acc = []) := by
  have hlen : 0 < m.length := List.length_pos_iff.2 hm
  have skip : ¬ Eligible nd m0 inIdx i ifc → ∃ ifc', some ifc = some ifc' ∧ ifc'.mode = ifc.mode ∧
      ∃ acc, Queued m ifc.buf ifc'.buf acc ∧
        (Eligible nd m0 inIdx i ifc ∧ (m.length : Int) ≤ ifc.buf.maxsize → acc = [m]) ∧
        (¬ (Eligible nd m0 inIdx i ifc ∧ (m.length : Int) ≤ ifc.buf.maxsize) → acc = []) := fun hn =>
    ⟨ifc, rfl, rfl, [], ⟨[], by simp, rfl⟩, fun h => absurd h.1 hn, fun _ => rfl⟩
  have ht1 : isTtl1 nd.ipsize m0 = true ↔
      ¬ (2 ≤ m0.getD (4 + nd.ipsize) 0 ∧ m0.getD (5 + nd.ipsize) 0 + m0.getD (4 + nd.ipsize) 0 ≤ 255) := by
    unfold isTtl1 ttl hopcnt byte
    rw [Bool.or_eq_true, decide_eq_true_iff, decide_eq_true_iff]
    omega
  unfold sendOn
  by_cases h1 : ifc.mode = .silent
  · rw [if_pos h1]; exact skip (by simp [Eligible, h1])
  rw [if_neg h1]
  by_cases h2 : ((i == inIdx) && decide (ifc.mode = .ether)) = true
  · rw [if_pos h2]
    simp only [Bool.and_eq_true, beq_iff_eq, decide_eq_true_eq] at h2
    exact skip (by simp [Eligible, h2.1, h2.2])
  rw [if_neg h2]
  by_cases h3 : (isTtl1 nd.ipsize m0 && decide (ifc.mode ≠ .ether)) = true
  · rw [if_pos h3]
    simp only [Bool.and_eq_true, decide_eq_true_eq] at h3
    refine skip ?_
    have hme : ifc.mode = .mesh := by
      cases hmd : ifc.mode with
      | mesh => rfl
      | ether => exact absurd hmd h3.2
      | silent => exact absurd hmd h1
    simp only [Eligible, hme]
    exact ht1.1 h3.1
  rw [if_neg h3]
  have hel : Eligible nd m0 inIdx i ifc := by
    cases hmd : ifc.mode with
    | silent => exact absurd hmd h1
    | ether =>
      simp only [Eligible, hmd]
      intro hi
      apply h2
      simp [hi, hmd]
    | mesh =>
      simp only [Eligible, hmd]
      refine Classical.byContradiction fun hn => h3 ?_
      rw [ht1.2 hn, hmd]
      rfl
  obtain ⟨r, hpush⟩ := push_some hr m
  obtain ⟨ha1, ha2⟩ := C15_push_accepts ifc.buf m r hm hpush
  by_cases h4 : ifc.buf.pending % 65536 ≠ 0
  · rw [if_pos h4, hpush]
    show ∃ ifc', (if r.1 ≠ m.length then _ else _) = some ifc' ∧ _
    by_cases h5 : r.1 ≠ m.length
    · rw [if_pos h5]
      have e := ha2 h5
      subst e
      obtain ⟨b1, ho, hr1⟩ := output_some hr
      obtain ⟨r2, hpush2⟩ := push_some hr1 m
      have hoe := C15_output_empties _ _ ho
      obtain ⟨hb1, hb2⟩ := C15_push_accepts b1 m r2 hm hpush2
      rw [ho]
      simp only [hpush2, Option.map_some]
      refine ⟨_, rfl, rfl, if r2.1 = m.length then [m] else [], ⟨[.push m, .output, .push m], by simp, ?_⟩, ?_, ?_⟩
      · have : ¬ 0 = m.length := by omega
        simp [run, step, hpush, ho, hpush2, this]
      · rintro ⟨_, hfit⟩
        rw [if_pos]
        rw [hb1, hoe.1, hoe.2]; omega
      · intro hn
        rw [if_neg]
        rw [hb1, hoe.1, hoe.2]
        intro h; exact hn ⟨hel, by omega⟩
    · rw [if_neg h5]
      have h5' : r.1 = m.length := by omega
      refine ⟨_, rfl, rfl, [m], ⟨[.push m], by simp, ?_⟩, fun _ => rfl, ?_⟩
      · simp only [run, push_step hpush, Option.map_some, if_pos h5', List.append_nil]
      · intro hn
        exact absurd ⟨hel, by have := ha1.1 h5'; omega⟩ hn
  · rw [if_neg h4, hpush]
    have h0 : ifc.buf.pending = 0 := by omega
    refine ⟨_, rfl, rfl, if r.1 = m.length then [m] else [], ⟨[.push m], by simp, ?_⟩, ?_, ?_⟩
    · simp only [run, push_step hpush, Option.map_some, List.append_nil]
    · rintro ⟨_, hfit⟩
      rw [if_pos (ha1.2 (by omega))]
    · intro hn
      rw [if_neg (fun h => hn ⟨hel, by have := ha1.1 h; omega⟩)]

private theorem sendAll_spec (nd : Node) (inIdx : Nat) (m0 m : List Nat) (hm : m ≠ []) : ∀ (ifs : List Iface) (k : Nat),
    (∀ ifc ∈ ifs, Reachable ifc.buf ∧ ifc.buf.pending < 65536) →
    ∃ ifs', sendAll inIdx (isTtl1 nd.ipsize m0) m k ifs = some ifs' ∧ ifs'.length = ifs.length ∧
      ∀ i (h : i < ifs.length) (h' : i < ifs'.length), ifs'[i].mode = ifs[i].mode ∧ ∃ acc, Queued m ifs[i].buf ifs'[i].buf acc ∧
        (Eligible nd m0 inIdx (k + i) ifs[i] ∧ (m.length : Int) ≤ ifs[i].buf.maxsize → acc = [m]) ∧
        (¬ (Eligible nd m0 inIdx (k + i) ifs[i] ∧ (m.length : Int) ≤ ifs[i].buf.maxsize) → acc = []) := by
  intro ifs
  induction ifs with
  | nil => intro k _; exact ⟨[], rfl, rfl, fun i h => absurd h (by simp)⟩
  | cons ifc ifs ih =>
    intro k h
    obtain ⟨h1, h2⟩ := h ifc (by simp)
    obtain ⟨ifc', e1, e2⟩ := sendOn_spec nd ifc k inIdx m0 m hm h1 h2
    obtain ⟨ifs', e3, e4, e5⟩ := ih (k + 1) (fun i hi => h i (by simp [hi]))
    refine ⟨ifc' :: ifs', ?_, by simp [e4], ?_⟩
    · rw [sendAll, e1, e3]; rfl
    · intro i hi hi'
      cases i with
      | zero => exact e2
      | succ i =>
        have := e5 i (by simpa using hi) (by simpa using hi')
        rw [show k + 1 + i = k + (i + 1) by omega] at this
        exact this

/-- **C14 (decision).**  For every node state and message: forwarding is defined, and it takes place exactly if the
sender (its main address) is a symmetric neighbour that chose this node as relay and the message is not a
duplicate; otherwise nothing is queued on any interface and the message is left alone. -/
theorem C14_forward_decision (nd : Node) (m : List Nat) (inIdx src now : Nat) (hm : m ≠ [])
    (hif : ∀ ifc ∈ nd.ifs, Reachable ifc.buf ∧ ifc.buf.pending < 65536) :
    ∃ ok nd' m', forward nd m inIdx src now = some (ok, nd', m') ∧
      (ok = true ↔ nd.neighSym ((nd.mainAddr src).getD src) = some true ∧ nd.isSelector ((nd.mainAddr src).getD src) = true ∧
        (Verif.Dup.isDuplicate nd.dup (orig nd.ipsize m) (seqno nd.ipsize m) now).1 = false) ∧
      (ok = false → nd'.ifs = nd.ifs ∧ m' = m) := by
  unfold forward
  simp only
  split
  · rename_i hs
    by_cases hsel : nd.isSelector ((nd.mainAddr src).getD src) = true
    · rw [if_pos hsel]
      by_cases hd : (Verif.Dup.isDuplicate nd.dup (orig nd.ipsize m) (seqno nd.ipsize m) now).1 = true
      · rw [if_pos hd]
        exact ⟨false, _, _, rfl, by simp [hd], fun _ => ⟨rfl, rfl⟩⟩
      · rw [if_neg hd]
        have hm' : (if isTtl1 nd.ipsize m = true then m else bump nd.ipsize m) ≠ [] := by
          split
          · exact hm
          · intro h
            have := congrArg List.length h
            simp only [bump, List.length_set, List.length_nil] at this
            exact hm (List.length_eq_zero_iff.1 this)
        obtain ⟨ifs', e1, _⟩ := sendAll_spec nd inIdx m _ hm' nd.ifs 0 hif
        rw [e1]
        refine ⟨true, _, _, rfl, ?_, fun h => by cases h⟩
        simp only [hs, hsel, true_and, true_iff]
        simpa using hd
    · rw [if_neg hsel]
      exact ⟨false, _, _, rfl, by simp [hsel], fun _ => ⟨rfl, rfl⟩⟩
  · rename_i hs
    refine ⟨false, _, _, rfl, ?_, fun _ => ⟨rfl, rfl⟩⟩
    constructor
    · intro h; cases h
    · intro h; exact absurd h.1 hs

/-- the copy that is retransmitted: TTL one lower, hop count one higher, every other byte unchanged, and neither
byte leaves the range of a byte -/
structure Relayed (n : Nat) (m copy : List Nat) : Prop where
  length : copy.length = m.length
  ttl : copy.getD (4 + n) 0 + 1 = m.getD (4 + n) 0
  ttlPos : 0 < copy.getD (4 + n) 0
  hop : copy.getD (5 + n) 0 = m.getD (5 + n) 0 + 1
  hopMax : copy.getD (5 + n) 0 ≤ 255
  rest : ∀ i, i ≠ 4 + n → i ≠ 5 + n → copy.getD i 0 = m.getD i 0

private theorem bump_relayed (n : Nat) (m : List Nat) (hl : 8 + n ≤ m.length) (hb : ∀ b ∈ m, b < 256) (h : isTtl1 n m = false) :
    Relayed n m (bump n m) := by
  simp only [isTtl1, Bool.or_eq_false_iff, decide_eq_false_iff_not] at h
  obtain ⟨h1, h2⟩ := h
  have g1 : ttl n m = m.getD (4 + n) 0 := rfl
  have g2 : hopcnt n m = m.getD (5 + n) 0 := rfl
  have hm4 : m.getD (4 + n) 0 < 256 := by
    rw [List.getD_eq_getElem?_getD, List.getElem?_eq_getElem (by omega)]
    exact hb _ (List.getElem_mem _)
  have e4 : (bump n m).getD (4 + n) 0 = (ttl n m + 255) % 256 := by
    rw [bump, List.getD_eq_getElem?_getD, List.getElem?_set_self (by simp; omega)]; rfl
  have e5 : (bump n m).getD (5 + n) 0 = (hopcnt n m + 1) % 256 := by
    rw [bump, List.getD_eq_getElem?_getD, List.getElem?_set_ne (by omega), List.getElem?_set_self (by omega)]; rfl
  refine ⟨by simp [bump], by omega, by omega, by omega, by omega, ?_⟩
  intro i hi1 hi2
  rw [bump, List.getD_eq_getElem?_getD, List.getElem?_set_ne (by omega), List.getElem?_set_ne (by omega), ← List.getD_eq_getElem?_getD]

/-- **C14 (partial).**  Full claim: the retransmitted copy always has TTL one lower and hop count one higher.
What holds: if the message is forwarded, then on every interface exactly one copy is accepted for transmission
if the interface is eligible and large enough, and none otherwise; if TTL and hop count allow it (TTL at least 2,
sum at most 255) the copy is relayed as required; if they do not, it only goes to interfaces in Ethernet mode.
Missing: in that last case the copy is unchanged (`C14_ether_ttl_not_decremented`). -/
theorem C14_forwarded_copies_partial (nd : Node) (m : List Nat) (inIdx src now : Nat) (nd' : Node) (m' : List Nat)
    (hl : 8 + nd.ipsize ≤ m.length) (hb : ∀ b ∈ m, b < 256)
    (hif : ∀ ifc ∈ nd.ifs, Reachable ifc.buf ∧ ifc.buf.pending < 65536)
    (h : forward nd m inIdx src now = some (true, nd', m')) :
    nd'.ifs.length = nd.ifs.length ∧
    (∀ i (hi : i < nd.ifs.length) (hi' : i < nd'.ifs.length), ∃ acc, Queued m' nd.ifs[i].buf nd'.ifs[i].buf acc ∧
      (Eligible nd m inIdx i nd.ifs[i] ∧ (m.length : Int) ≤ nd.ifs[i].buf.maxsize → acc = [m']) ∧
      (¬ (Eligible nd m inIdx i nd.ifs[i] ∧ (m.length : Int) ≤ nd.ifs[i].buf.maxsize) → acc = []) ∧
      (acc ≠ [] → Relayed nd.ipsize m m' ∨ (nd.ifs[i].mode = .ether ∧ m' = m))) := by
  unfold forward at h
  simp only at h
  split at h
  · split at h
    · split at h
      · cases h
      · obtain ⟨ifs, hs, he⟩ := Option.map_eq_some_iff.1 h
        have hnd := (Prod.mk.inj (Prod.mk.inj he).2).1
        have hm' := (Prod.mk.inj (Prod.mk.inj he).2).2
        have hmne : m ≠ [] := by rintro rfl; simp at hl
        have hlen : m'.length = m.length := by
          rw [← hm']; split
          · rfl
          · simp [bump]
        have hne : m' ≠ [] := by
          intro h0; rw [h0] at hlen; exact hmne (List.length_eq_zero_iff.1 hlen.symm)
        obtain ⟨ifs', e1, e2, e3⟩ := sendAll_spec nd inIdx m m' hne nd.ifs 0 hif
        rw [hm'] at hs
        rw [hs] at e1
        obtain rfl := Option.some.inj e1
        have hifs : nd'.ifs = ifs := by rw [← hnd]
        subst hifs
        refine ⟨e2, ?_⟩
        intro i hi hi'
        obtain ⟨hmode, acc, q1, q2, q3⟩ := e3 i hi hi'
        rw [Nat.zero_add, hlen] at q2 q3
        refine ⟨acc, q1, q2, q3, ?_⟩
        intro hacc
        have hel : Eligible nd m inIdx i nd.ifs[i] := by
          refine Classical.byContradiction fun hn => hacc (q3 fun h => hn h.1)
        by_cases ht : isTtl1 nd.ipsize m = true
        · right
          rw [if_pos ht] at hm'
          refine ⟨?_, hm'.symm⟩
          cases hmd : nd.ifs[i].mode with
          | ether => rfl
          | silent => simp [Eligible, hmd] at hel
          | mesh =>
            simp only [Eligible, hmd] at hel
            unfold isTtl1 ttl hopcnt byte at ht
            rw [Bool.or_eq_true, decide_eq_true_iff, decide_eq_true_iff] at ht
            omega
        · left
          rw [if_neg ht] at hm'
          rw [← hm']
          exact bump_relayed _ _ hl hb (by simpa using ht)
    · cases h
  · cases h

/-- **C14.**  A message that was forwarded once is not forwarded again while it is remembered, whichever
neighbour sends the further copy and whatever else is received in between (under the conditions of C04). -/
theorem C14_not_forwarded_twice (nd nd1 nd2 : Node) (m m1 m2 : List Nat) (i1 i2 src1 src2 t1 t2 : Nat)
    (e0 : Verif.Dup.Entry) (ops : List Verif.Dup.Op) (r : Bool × Node × List Nat)
    (ht : t1 + 240000 < 2 ^ 32) (hb : ∀ b ∈ m, b < 256)
    (hknown : nd.dup (orig nd.ipsize m) = some e0) (hseq : e0.seqnr < 65536) (hvu : e0.validUntil ≤ t1 + 120000)
    (h1 : forward nd m i1 src1 t1 = some (true, nd1, m1))
    (hip : nd2.ipsize = nd.ipsize) (horig : orig nd.ipsize m2 = orig nd.ipsize m) (hsq : seqno nd.ipsize m2 = seqno nd.ipsize m)
    (hops : ∀ op ∈ ops, Verif.Dup.Between (orig nd.ipsize m) (seqno nd.ipsize m) t1 op)
    (hold : ops.countP (Verif.Dup.isOlder (orig nd.ipsize m) (seqno nd.ipsize m)) ≤ 16)
    (hdup : nd2.dup = Verif.Dup.run nd1.dup ops)
    (h2 : forward nd2 m2 i2 src2 t2 = some r) : r.1 = false := by
  have hs : seqno nd.ipsize m < 65536 := by
    have hg : ∀ i, m.getD i 0 < 256 := by
      intro i
      rw [List.getD_eq_getElem?_getD]
      cases h : m[i]? with
      | none => simp
      | some x => exact hb x (List.mem_of_getElem? h)
    have h1 := hg (6 + nd.ipsize)
    have h2 := hg (7 + nd.ipsize)
    unfold seqno byte; omega
  unfold forward at h1
  simp only at h1
  split at h1
  · split at h1
    · split at h1
      · cases h1
      · rename_i hnd
        obtain ⟨ifs, _, he⟩ := Option.map_eq_some_iff.1 h1
        have hnd1 := (Prod.mk.inj (Prod.mk.inj he).2).1
        have hd1 : nd1.dup = (Verif.Dup.isDuplicate nd.dup (orig nd.ipsize m) (seqno nd.ipsize m) t1).2 := by rw [← hnd1]
        have hacc : (Verif.Dup.isDuplicate nd.dup (orig nd.ipsize m) (seqno nd.ipsize m) t1).1 = false := by simpa using hnd
        have key := Verif.Dup.C04_no_second_acceptance_partial nd.dup (orig nd.ipsize m) (seqno nd.ipsize m) t1 t2 e0 ops hs ht hknown hseq hvu
          hacc hops hold
        rw [← hd1, ← hdup] at key
        unfold forward at h2
        simp only at h2
        rw [hip, horig, hsq] at h2
        split at h2
        · split at h2
          · obtain rfl := Option.some.inj h2
            rfl
          · obtain rfl := Option.some.inj h2; rfl
        · obtain rfl := Option.some.inj h2; rfl
    · cases h1
  · cases h1

/-! ### Examples -/

/-- a node with a mesh and an Ethernet interface; neighbour 9 is symmetric and has chosen us as relay -/
def exNode : Node :=
  { ipsize := 4, mainAddr := fun a => if a = 19 then some 9 else none, neighSym := fun a => if a = 9 then some true else none
    isSelector := fun a => a == 9, dup := Verif.Dup.State.empty
    ifs := [⟨.mesh, addBuffer (List.replicate 40 0) 0 []⟩, ⟨.ether, addBuffer (List.replicate 40 0) 0 []⟩] }

def exMsg (ttl hop : Nat) : List Nat := [1, 0, 0, 12, 10, 0, 0, 7, ttl, hop, 0, 5]

/-- what is waiting on the interfaces afterwards -/
def waiting (r : Option (Bool × Node × List Nat)) : Option (Bool × List (List Nat)) :=
  r.map fun r => (r.1, r.2.1.ifs.map fun i => (i.buf.buff.drop 4).take i.buf.pending)

/-- received on the mesh interface from an alias of neighbour 9: relayed on both interfaces -/
example : waiting (forward exNode (exMsg 7 3) 0 19 1000) = some (true, [exMsg 6 4, exMsg 6 4]) ∧
    waiting (forward exNode (exMsg 7 3) 0 8 1000) = some (false, [[], []]) := by decide

example : ∀ ifc ∈ exNode.ifs, Reachable ifc.buf ∧ ifc.buf.pending < 65536 := by
  have h : Reachable (addBuffer (List.replicate 40 0) 0 []) := ⟨_, 0, [], [], by omega, rfl⟩
  intro ifc hi
  simp only [exNode, List.mem_cons, List.not_mem_nil, or_false] at hi
  rcases hi with rfl | rfl <;> exact ⟨h, by decide⟩

/-- **C14 is false on Ethernet interfaces**: a message with TTL 0 (or 1, or with hop count and TTL adding up to more
than 255) received on the mesh interface is retransmitted there with TTL and hop count unchanged. -/
theorem C14_ether_ttl_not_decremented :
    waiting (forward exNode (exMsg 0 3) 0 9 1000) = some (true, [[], exMsg 0 3]) ∧
    waiting (forward exNode (exMsg 1 3) 0 9 1000) = some (true, [[], exMsg 1 3]) ∧
    waiting (forward exNode (exMsg 200 56) 0 9 1000) = some (true, [[], exMsg 200 56]) := by decide

end Verif.Forward
