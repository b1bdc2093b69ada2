import Verif.NetbufModel

/-!
# C15, C16: output buffers
-/

namespace Verif.Netbuf

/-! ### Specification -/

/-- datagram number `k` made of the whole messages `g`: length, sequence number, messages -/
def datagram (seq0 k : Nat) (g : List (List Nat)) : List Nat :=
  [(g.flatten.length + 4) / 256 % 256, (g.flatten.length + 4) % 256,
    (seq0 + k) % 65536 / 256, (seq0 + k) % 65536 % 256] ++ g.flatten

/-- the datagrams for consecutive groups of messages -/
def datagrams (seq0 : Nat) : Nat → List (List (List Nat)) → List (List Nat)
  | _, [] => []
  | k, g :: gs => datagram seq0 k g :: datagrams seq0 (k + 1) gs

/-! ### Proofs -/

private theorem datagrams_append (s : Nat) : ∀ (gs : List (List (List Nat))) (k : Nat) (g : List (List Nat)),
    datagrams s k (gs ++ [g]) = datagrams s k gs ++ [datagram s (k + gs.length) g] := by
  intro gs
  induction gs with
  | nil => intro k g; simp [datagrams]
  | cons x gs ih =>
    intro k g
    simp only [List.cons_append, datagrams, ih, List.length_cons]
    rw [show k + 1 + gs.length = k + (gs.length + 1) by omega]

/-- invariant: `A` = accepted messages so far -/
private structure Inv (mtu seq0 : Nat) (b : Buf) (A : List (List Nat)) : Prop where
  len : b.buff.length = mtu
  max : b.maxsize + b.reserved + 4 ≤ mtu
  cap : b.pending = 0 ∨ b.pending + 4 ≤ mtu
  hist : ∃ gs tail, A = gs.flatten ++ tail ∧ b.sent = datagrams seq0 0 gs ∧ (∀ d ∈ b.sent, 4 < d.length ∧ d.length ≤ mtu) ∧
    tail.flatten.length = b.pending ∧ (b.buff.drop 4).take b.pending = tail.flatten ∧ b.seqnum = (seq0 + gs.length) % 65536

private theorem write_len {m m' : List Nat} {pos : Nat} {d : List Nat} (h : write m pos d = some m') : m'.length = m.length := by
  unfold write at h
  split at h
  · obtain rfl := Option.some.inj h
    simp
    omega
  · cases h

private theorem append_ok {mtu seq0 : Nat} {b : Buf} {A : List (List Nat)} (hi : Inv mtu seq0 b A) (data : List Nat)
    (hfit : b.pending + data.length + 4 ≤ mtu) :
    ∃ m, write b.buff (b.pending + 4) data = some m ∧
      Inv mtu seq0 { b with buff := m, pending := b.pending + data.length } (A ++ [data]) := by
  obtain ⟨gs, tail, h1, h2, h3, h4, h5, h6⟩ := hi.hist
  have hl := hi.len
  have hw : write b.buff (b.pending + 4) data =
      some (b.buff.take (b.pending + 4) ++ data ++ b.buff.drop (b.pending + 4 + data.length)) := by
    unfold write; rw [if_pos (by omega)]
  refine ⟨_, hw, ⟨?_, hi.max, ?_, gs, tail ++ [data], ?_, h2, h3, ?_, ?_, h6⟩⟩
  · simp; omega
  · right; show b.pending + data.length + 4 ≤ mtu; exact hfit
  · rw [h1, List.append_assoc]
  · show (tail ++ [data]).flatten.length = b.pending + data.length
    rw [List.flatten_append, List.length_append, h4]; simp
  · show ((b.buff.take (b.pending + 4) ++ data ++ b.buff.drop (b.pending + 4 + data.length)).drop 4).take (b.pending + data.length) = _
    have e1 : (b.buff.take (b.pending + 4)).length = b.pending + 4 := by simp; omega
    rw [List.append_assoc, List.drop_append_of_le_length (by omega), List.drop_take, Nat.add_sub_cancel]
    rw [← List.append_assoc]
    have e2 : (List.take b.pending (List.drop 4 b.buff) ++ data).length = b.pending + data.length := by
      simp; omega
    rw [List.take_append_of_le_length (by omega), List.take_of_length_le (by omega), h5]
    simp

private theorem step_ok {mtu seq0 : Nat} {b : Buf} {A : List (List Nat)} (hi : Inv mtu seq0 b A) (op : Op) :
    ∃ r, step b op = some r ∧ Inv mtu seq0 r.1 (A ++ r.2) := by
  cases op with
  | push d =>
    simp only [step, push]
    by_cases h : ((b.pending + d.length : Nat) : Int) > b.maxsize
    · rw [if_pos h]
      refine ⟨_, rfl, ?_⟩
      show Inv mtu seq0 b (A ++ if 0 = d.length then [d] else [])
      split
      · obtain ⟨gs, tail, h1, h2, h3, h4, h5, h6⟩ := hi.hist
        have hd : d = [] := List.length_eq_zero_iff.1 (by omega)
        refine ⟨hi.len, hi.max, hi.cap, gs, tail ++ [d], by rw [h1, List.append_assoc], h2, h3, ?_, ?_, h6⟩
        · rw [hd]; simpa using h4
        · rw [hd]; simpa using h5
      · rw [List.append_nil]; exact hi
    · rw [if_neg h]
      have := hi.max
      obtain ⟨m, hw, hi'⟩ := append_ok hi d (by omega)
      rw [hw]
      refine ⟨_, rfl, ?_⟩
      show Inv mtu seq0 _ (A ++ if d.length = d.length then [d] else [])
      rw [if_pos rfl]
      exact hi'
  | pushReserved d =>
    simp only [step, pushReserved]
    by_cases h : ((b.pending + d.length : Nat) : Int) > b.maxsize + b.reserved
    · rw [if_pos h]
      refine ⟨_, rfl, ?_⟩
      show Inv mtu seq0 b (A ++ if 0 = d.length then [d] else [])
      split
      · obtain ⟨gs, tail, h1, h2, h3, h4, h5, h6⟩ := hi.hist
        have hd : d = [] := List.length_eq_zero_iff.1 (by omega)
        refine ⟨hi.len, hi.max, hi.cap, gs, tail ++ [d], by rw [h1, List.append_assoc], h2, h3, ?_, ?_, h6⟩
        · rw [hd]; simpa using h4
        · rw [hd]; simpa using h5
      · rw [List.append_nil]; exact hi
    · rw [if_neg h]
      have := hi.max
      obtain ⟨m, hw, hi'⟩ := append_ok hi d (by omega)
      rw [hw]
      refine ⟨_, rfl, ?_⟩
      show Inv mtu seq0 _ (A ++ if d.length = d.length then [d] else [])
      rw [if_pos rfl]
      exact hi'
  | reserve n =>
    refine ⟨_, rfl, ?_⟩
    rw [List.append_nil]
    unfold reserve
    split
    · exact hi
    · refine ⟨hi.len, ?_, hi.cap, hi.hist⟩
      have := hi.max
      show b.maxsize - n + n + 4 ≤ mtu
      omega
  | output =>
    simp only [step, output]
    by_cases h : b.pending = 0
    · rw [if_pos h]
      exact ⟨_, rfl, by rw [List.append_nil]; exact hi⟩
    · rw [if_neg h]
      obtain ⟨gs, tail, h1, h2, h3, h4, h5, h6⟩ := hi.hist
      have hl := hi.len
      have hc : b.pending + 4 ≤ mtu := by rcases hi.cap with h' | h' <;> omega
      have hw : write b.buff 0 (header (b.pending + 4) b.seqnum) =
          some (header (b.pending + 4) b.seqnum ++ b.buff.drop 4) := by
        unfold write
        rw [if_pos (by simp [header]; omega)]
        simp [header]
      rw [hw]
      refine ⟨_, rfl, ?_⟩
      have hpkt : (header (b.pending + 4) b.seqnum ++ b.buff.drop 4).take (b.pending + 4) = datagram seq0 gs.length tail := by
        have e : (header (b.pending + 4) b.seqnum).length = 4 := rfl
        rw [List.take_append, e, Nat.add_sub_cancel, h5, List.take_of_length_le (by omega)]
        unfold datagram header
        rw [h4, h6]
        have : (seq0 + gs.length) % 65536 / 256 % 256 = (seq0 + gs.length) % 65536 / 256 := by omega
        rw [this]
      refine ⟨?_, hi.max, .inl rfl, gs ++ [tail], [], ?_, ?_, ?_, rfl, rfl, ?_⟩
      · show (header (b.pending + 4) b.seqnum ++ b.buff.drop 4).length = mtu
        simp [header]; omega
      · rw [h1]; simp
      · show b.sent ++ [(header (b.pending + 4) b.seqnum ++ b.buff.drop 4).take (b.pending + 4)] = _
        rw [hpkt, datagrams_append, h2, Nat.zero_add]
      · intro d hd
        have hd : d ∈ b.sent ++ [(header (b.pending + 4) b.seqnum ++ b.buff.drop 4).take (b.pending + 4)] := hd
        rcases List.mem_append.1 hd with hd | hd
        · exact h3 d hd
        · rw [List.mem_singleton.1 hd]
          simp [header]
          omega
      · show (b.seqnum + 1) % 65536 = _
        rw [h6, List.length_append, List.length_singleton]
        omega

private theorem run_ok {mtu seq0 : Nat} : ∀ (ops : List Op) {b : Buf} {A : List (List Nat)}, Inv mtu seq0 b A →
    ∃ r, run b ops = some r ∧ Inv mtu seq0 r.1 (A ++ r.2) := by
  intro ops
  induction ops with
  | nil => intro b A hi; exact ⟨_, rfl, by rw [List.append_nil]; exact hi⟩
  | cons op ops ih =>
    intro b A hi
    obtain ⟨r, h1, h2⟩ := step_ok hi op
    obtain ⟨q, h3, h4⟩ := ih h2
    rw [run, h1]
    simp only [h3, Option.map_some]
    exact ⟨_, rfl, by rw [← List.append_assoc]; exact h4⟩

private theorem inv_init (junk : List Nat) (seq0 : Nat) (hs : seq0 < 65536) : Inv junk.length seq0 (addBuffer junk seq0 []) [] :=
  ⟨rfl, by simp [addBuffer], .inl rfl, [], [], rfl, rfl, by simp [addBuffer], rfl, rfl,
    by show seq0 = (seq0 + 0) % 65536; omega⟩

/-- **C15.**  For an interface of any MTU and any sequence of pushes, reserved pushes, reservations and
flushes: nothing is written outside the buffer; the datagrams sent, in order, consist of the packet header
(length, consecutive sequence number) and whole accepted messages; taken together with the messages still
waiting they contain every accepted message exactly once and in order of acceptance; and no datagram exceeds
the MTU. -/
theorem C15_netbuf (junk : List Nat) (seq0 : Nat) (hs : seq0 < 65536) (ops : List Op) :
    ∃ b accepted, run (addBuffer junk seq0 []) ops = some (b, accepted) ∧
      ∃ groups waiting, accepted = groups.flatten ++ waiting ∧
        b.sent = datagrams seq0 0 groups ∧
        (∀ d ∈ b.sent, 4 < d.length ∧ d.length ≤ junk.length) ∧
        (b.buff.drop 4).take b.pending = waiting.flatten ∧ b.pending = waiting.flatten.length := by
  obtain ⟨r, h1, h2⟩ := run_ok ops (inv_init junk seq0 hs)
  obtain ⟨gs, tail, e1, e2, e3, e4, e5, e6⟩ := h2.hist
  exact ⟨r.1, r.2, h1, gs, tail, by simpa using e1, e2, e3, e5, e4.symm⟩

/-- **C15.**  A push is accepted exactly if the message fits behind what is waiting; then a flush empties the
buffer, so whatever fits an empty buffer can be sent after at most one flush. -/
theorem C15_push_accepts (b : Buf) (data : List Nat) (r : Nat × Buf) (hd : data ≠ []) (h : push b data = some r) :
    (r.1 = data.length ↔ (b.pending : Int) + data.length ≤ b.maxsize) ∧
    (r.1 ≠ data.length → r = (0, b)) := by
  have hpos : 0 < data.length := List.length_pos_iff.2 hd
  unfold push at h
  split at h
  · obtain rfl := Option.some.inj h
    refine ⟨?_, fun _ => rfl⟩
    show 0 = data.length ↔ _
    omega
  · obtain ⟨m, hm, rfl⟩ := Option.map_eq_some_iff.1 h
    refine ⟨?_, fun h => absurd rfl h⟩
    show data.length = data.length ↔ _
    omega

theorem C15_output_empties (b b' : Buf) (h : output b = some b') : b'.pending = 0 ∧ b'.maxsize = b.maxsize := by
  unfold output at h
  split at h
  · obtain rfl := Option.some.inj h; exact ⟨by assumption, rfl⟩
  · obtain ⟨m, hm, rfl⟩ := Option.map_eq_some_iff.1 h
    exact ⟨rfl, rfl⟩

/-- MTU 16: the third message does not fit until the buffer has been flushed -/
example : (run (addBuffer (List.replicate 16 0) 65535 []) [.push [1, 2, 3, 4], .push [5, 6, 7, 8, 9], .push [10, 11, 12, 13], .output,
    .push [10, 11, 12, 13], .output, .output]).map (fun r => (r.1.sent, r.2)) =
    some ([[0, 13, 255, 255, 1, 2, 3, 4, 5, 6, 7, 8, 9], [0, 8, 0, 0, 10, 11, 12, 13]],
      [[1, 2, 3, 4], [5, 6, 7, 8, 9], [10, 11, 12, 13]]) := by decide

/-- a buffer as it can occur: the result of any operations on a fresh one -/
def Reachable (b : Buf) : Prop :=
  ∃ junk seq0 ops acc, seq0 < 65536 ∧ run (addBuffer junk seq0 []) ops = some (b, acc)

private theorem run_append : ∀ (ops ops' : List Op) (b b' : Buf) (acc : List (List Nat)), run b ops = some (b', acc) →
    run b (ops ++ ops') = (run b' ops').map fun q => (q.1, acc ++ q.2) := by
  intro ops
  induction ops with
  | nil =>
    intro ops' b b' acc h
    simp only [run, Option.some.injEq, Prod.mk.injEq] at h
    obtain ⟨rfl, rfl⟩ := h
    simp
  | cons op ops ih =>
    intro ops' b b' acc h
    rw [List.cons_append, run]
    rw [run] at h
    cases hs : step b op with
    | none => rw [hs] at h; cases h
    | some r =>
      rw [hs] at h
      simp only at h ⊢
      obtain ⟨q, hq, he⟩ := Option.map_eq_some_iff.1 h
      rw [ih ops' r.1 q.1 q.2 hq, Option.map_map]
      obtain ⟨rfl, rfl⟩ := Prod.mk.inj he
      congr 1
      funext x
      simp

/-- **C15.**  No further operation on a reachable buffer runs into undefined behaviour. -/
theorem C15_reachable_defined {b : Buf} (h : Reachable b) (ops : List Op) :
    ∃ b' acc, run b ops = some (b', acc) ∧ Reachable b' := by
  obtain ⟨junk, seq0, ops0, acc0, hs, h0⟩ := h
  obtain ⟨b', acc, h1, _⟩ := C15_netbuf junk seq0 hs (ops0 ++ ops)
  have h1' := h1
  rw [run_append ops0 ops _ b acc0 h0] at h1
  obtain ⟨q, hq, he⟩ := Option.map_eq_some_iff.1 h1
  have : q.1 = b' := (Prod.mk.inj he).1
  exact ⟨q.1, q.2, hq, junk, seq0, ops0 ++ ops, acc, hs, by rw [this]; exact h1'⟩

/-! ### C16 -/

/-- operations other than reservations and reserved pushes -/
def Ordinary : Op → Prop
  | .push _ => True
  | .output => True
  | _ => False

private theorem ordinary_step {mtu seq0 : Nat} {b : Buf} {A : List (List Nat)} (hi : Inv mtu seq0 b A) (hp : (b.pending : Int) ≤ max b.maxsize 0)
    (op : Op) (ho : Ordinary op) : ∃ r, step b op = some r ∧ Inv mtu seq0 r.1 (A ++ r.2) ∧
      r.1.maxsize = b.maxsize ∧ r.1.reserved = b.reserved ∧ (r.1.pending : Int) ≤ max b.maxsize 0 := by
  obtain ⟨r, h1, h2⟩ := step_ok hi op
  refine ⟨r, h1, h2, ?_⟩
  cases op with
  | push d =>
    simp only [step, push] at h1
    split at h1
    · obtain rfl := Option.some.inj h1
      exact ⟨rfl, rfl, hp⟩
    · rename_i hfit
      obtain ⟨q, hq, rfl⟩ := Option.map_eq_some_iff.1 h1
      obtain ⟨m, hm, rfl⟩ := Option.map_eq_some_iff.1 hq
      refine ⟨rfl, rfl, ?_⟩
      show ((b.pending + d.length : Nat) : Int) ≤ _
      omega
  | pushReserved d => exact ho.elim
  | reserve n => exact ho.elim
  | output =>
    simp only [step, output] at h1
    split at h1
    · obtain ⟨q, hq, rfl⟩ := Option.map_eq_some_iff.1 h1
      obtain rfl := Option.some.inj hq
      exact ⟨rfl, rfl, hp⟩
    · obtain ⟨q, hq, rfl⟩ := Option.map_eq_some_iff.1 h1
      obtain ⟨m, hm, rfl⟩ := Option.map_eq_some_iff.1 hq
      refine ⟨rfl, rfl, ?_⟩
      show ((0 : Nat) : Int) ≤ _
      omega

private theorem ordinary_run {mtu seq0 : Nat} : ∀ (ops : List Op) {b : Buf} {A : List (List Nat)}, Inv mtu seq0 b A →
    (b.pending : Int) ≤ max b.maxsize 0 → (∀ op ∈ ops, Ordinary op) → ∃ r, run b ops = some r ∧ Inv mtu seq0 r.1 (A ++ r.2) ∧
      r.1.maxsize = b.maxsize ∧ r.1.reserved = b.reserved ∧ (r.1.pending : Int) ≤ max b.maxsize 0 := by
  intro ops
  induction ops with
  | nil => intro b A hi hp _; exact ⟨_, rfl, by rw [List.append_nil]; exact hi, rfl, rfl, hp⟩
  | cons op ops ih =>
    intro b A hi hp ho
    obtain ⟨r, h1, h2, h3, h4, h5⟩ := ordinary_step hi hp op (ho op (by simp))
    obtain ⟨q, k1, k2, k3, k4, k5⟩ := ih h2 (by rw [h3]; exact h5) (fun o h => ho o (by simp [h]))
    rw [run, h1]
    simp only [k1, Option.map_some]
    exact ⟨_, rfl, by rw [← List.append_assoc]; exact k2, by rw [k3, h3], by rw [k4, h4], by rw [← h3]; exact k5⟩

/-- **C16 (partial).**  After one successful reservation of `n` bytes on a fresh buffer, and any ordinary pushes
and flushes, a reserved push of up to `n` bytes is accepted.  Missing: a second reservation, which replaces the
first one (`C16_second_reservation_drops_first`). -/
theorem C16_reserved_available_partial (junk : List Nat) (seq0 n : Nat) (hs : seq0 < 65536) (ops : List Op) (hops : ∀ op ∈ ops, Ordinary op)
    (data : List Nat) (hd : data.length ≤ n) (b : Buf) (hres : reserve (addBuffer junk seq0 []) n = (true, b)) :
    ∃ b' acc r, run b ops = some (b', acc) ∧ pushReserved b' data = some (data.length, r) ∧ r.pending = b'.pending + data.length := by
  have hi0 := inv_init junk seq0 hs
  unfold reserve at hres
  split at hres
  · cases hres
  · rename_i hfit
    have hb : { addBuffer junk seq0 [] with reserved := n, maxsize := (addBuffer junk seq0 []).maxsize - n } = b := (Prod.mk.inj hres).2
    have hm : (addBuffer junk seq0 []).maxsize = (junk.length : Int) - 4 := rfl
    have hbm : b.maxsize = (junk.length : Int) - 4 - n := by rw [← hb]; rfl
    have hbr : b.reserved = n := by rw [← hb]
    have hbp : b.pending = 0 := by rw [← hb]; rfl
    have hi : Inv junk.length seq0 b [] := by
      rw [← hb]
      exact ⟨hi0.len, by show (addBuffer junk seq0 []).maxsize - n + n + 4 ≤ _; rw [hm]; omega, hi0.cap, hi0.hist⟩
    obtain ⟨q, h1, h2, h3, h4, h5⟩ := ordinary_run ops hi (by rw [hbp]; omega) hops
    have hmax := h2.max
    have hcond : ¬ ((q.1.pending + data.length : Nat) : Int) > q.1.maxsize + q.1.reserved := by
      rw [h3, h4, hbr]; rw [hm] at hfit; omega
    obtain ⟨m, hw, _⟩ := append_ok h2 data (by
      rw [h3, h4] at hmax hcond; omega)
    refine ⟨q.1, q.2, { q.1 with buff := m, pending := q.1.pending + data.length }, h1, ?_, rfl⟩
    unfold pushReserved
    rw [if_neg hcond, hw]; rfl

example : (run (reserve (addBuffer (List.replicate 20 0) 0 []) 6).2 [.push [1, 2, 3, 4, 5, 6, 7, 8, 9, 10], .push [1]]).map
    (fun r => (r.2, (pushReserved r.1 [7, 7, 7, 7, 7, 7]).map Prod.fst)) = some ([[1, 2, 3, 4, 5, 6, 7, 8, 9, 10]], some 6) := by decide

/-- **C16 is false with two reservations**: the second one replaces the first in `reserved` while both shrink
the space for ordinary messages; after reserving 8 and then 2 bytes and filling the rest, the owner of the 8
bytes cannot push them although 10 bytes are free. -/
theorem C16_second_reservation_drops_first :
    let b0 := addBuffer (List.replicate 20 0) 0 []
    let b2 := (reserve (reserve b0 8).2 2).2
    (reserve b0 8).1 = true ∧ (reserve (reserve b0 8).2 2).1 = true ∧
    (run b2 [.push [1, 2, 3, 4, 5, 6]]).map (fun r => (r.2, r.1.pending, (pushReserved r.1 [7, 7, 7, 7, 7, 7, 7, 7]).map Prod.fst)) =
      some ([[1, 2, 3, 4, 5, 6]], 6, some 0) := by decide

/-- **C16.**  A message no longer than the reported number of bytes left is always accepted. -/
theorem C16_bytes_left_accepted (junk : List Nat) (seq0 : Nat) (hs : seq0 < 65536) (ops : List Op) (data : List Nat)
    (b : Buf) (acc : List (List Nat)) (hr : run (addBuffer junk seq0 []) ops = some (b, acc)) (hd : (data.length : Int) ≤ bytesLeft b) :
    ∃ b', push b data = some (data.length, b') := by
  obtain ⟨r, h1, h2⟩ := run_ok ops (inv_init junk seq0 hs)
  rw [hr] at h1
  obtain rfl := Option.some.inj h1
  have hmax := h2.max
  have hle : (b.pending : Int) + data.length ≤ b.maxsize := by unfold bytesLeft at hd; split at hd <;> omega
  simp only at hmax
  obtain ⟨m, hw, _⟩ := append_ok h2 data (by show b.pending + data.length + 4 ≤ _; omega)
  unfold push
  rw [if_neg (by omega)]
  have hw : write b.buff (b.pending + 4) data = some m := hw
  rw [hw]
  exact ⟨_, rfl⟩

example : bytesLeft (addBuffer (List.replicate 20 0) 0 []) = 16 ∧ bytesLeft (addBuffer (List.replicate 1500 0) 0 []) = 1228 := by
  decide +kernel

end Verif.Netbuf
