import Verif.NetbufProps
import Verif.ParserProps

/-!
# C49: a receiver sees exactly the messages the sender queued

The output buffer of one node (`NetbufModel`) and the packet parser of another (`ParserModel`) put together.
-/

namespace Verif.Wire

open Verif.Netbuf Verif.Parser

/-- a complete message: header present, length a multiple of four and stored in bytes 2 and 3 -/
def WholeMessage (ipsize : Nat) (m : List Nat) : Prop :=
  8 + ipsize ≤ m.length ∧ m.length % 4 = 0 ∧ m.getD 2 0 * 256 + m.getD 3 0 = m.length

/-- the bytes of the message at `(off, len)` -/
def slice (d : List Nat) (p : Nat × Nat) : List Nat := (d.drop p.1).take p.2

private theorem getD_append_right' (l l' : List Nat) (i : Nat) (h : l.length ≤ i) : (l ++ l').getD i 0 = l'.getD (i - l.length) 0 := by
  rw [List.getD_eq_getElem?_getD, List.getElem?_append_right h, List.getD_eq_getElem?_getD]

private theorem getD_append_left' (l l' : List Nat) (i : Nat) (h : i < l.length) : (l ++ l').getD i 0 = l.getD i 0 := by
  rw [List.getD_eq_getElem?_getD, List.getElem?_append_left h, List.getD_eq_getElem?_getD]

private theorem messages_of (ipsize : Nat) : ∀ (g : List (List Nat)) (pre : List Nat), (∀ m ∈ g, WholeMessage ipsize m) →
    ∃ l, Messages ipsize (pre ++ g.flatten) pre.length l ∧ l.map (slice (pre ++ g.flatten)) = g := by
  intro g
  induction g with
  | nil =>
    intro pre _
    refine ⟨[], .stop ?_, rfl⟩
    rintro ⟨len, h1, h2, _⟩
    simp at h1; omega
  | cons m g ih =>
    intro pre h
    obtain ⟨h1, h2, h3⟩ := h m (by simp)
    obtain ⟨l, e1, e2⟩ := ih (pre ++ m) (fun x hx => h x (by simp [hx]))
    have hcat : pre ++ (m :: g).flatten = (pre ++ m) ++ g.flatten := by simp
    rw [hcat]
    refine ⟨(pre.length, m.length) :: l, .next ⟨?_, h1, h2, ?_⟩ ?_, ?_⟩
    · simp
    · rw [List.append_assoc, getD_append_right' pre _ _ (by omega), getD_append_right' pre _ _ (by omega),
        getD_append_left' m _ _ (by omega), getD_append_left' m _ _ (by omega),
        show pre.length + 2 - pre.length = 2 by omega, show pre.length + 3 - pre.length = 3 by omega]
      exact h3.symm
    · rw [show pre.length + m.length = (pre ++ m).length by simp]
      exact e1
    · rw [List.map_cons, e2]
      congr 1
      simp [slice]

private theorem datagrams_mem (seq0 : Nat) : ∀ (gs : List (List (List Nat))) (k : Nat) (d : List Nat), d ∈ datagrams seq0 k gs →
    ∃ g ∈ gs, ∃ j, d = datagram seq0 j g := by
  intro gs
  induction gs with
  | nil => intro k d h; simp [datagrams] at h
  | cons g gs ih =>
    intro k d h
    rcases List.mem_cons.1 h with h | h
    · exact ⟨g, by simp, k, h⟩
    · obtain ⟨g', hg, j, hd⟩ := ih (k + 1) d h
      exact ⟨g', by simp [hg], j, hd⟩

/-- **C49.**  Whatever sequence of buffer operations a node performs on an interface with MTU below 65536, if only
complete messages are pushed, then every datagram it sends is accepted by the parser of a receiver of the same address
family, whatever is left in its buffer and whatever its handlers do, and the messages the receiver treats are
exactly the group of accepted messages contained in that datagram, byte for byte and in order. -/
theorem C49_sent_messages_received (cfg : Cfg) (env : Env) (stale junk : List Nat) (seq0 : Nat) (hs : seq0 < 65536)
    (hmtu : junk.length < 65536) (ops : List Op)
    (hops : ∀ m, Op.push m ∈ ops ∨ Op.pushReserved m ∈ ops → WholeMessage cfg.ipsize m) :
    ∃ b accepted groups waiting, run (addBuffer junk seq0 []) ops = some (b, accepted) ∧
      accepted = groups.flatten ++ waiting ∧ b.sent = datagrams seq0 0 groups ∧
      ∀ d ∈ b.sent, ∃ g ∈ groups, ∃ st l, parsePacket cfg env (d ++ stale) d.length = some st ∧
        Trace cfg d l st.evs ∧ l.map (slice d) = g := by
  obtain ⟨b, acc, h1, gs, w, h2, h3, h4, _⟩ := C15_netbuf junk seq0 hs ops
  have hacc : ∀ (ops : List Op) (b0 b : Buf) (acc : List (List Nat)), run b0 ops = some (b, acc) →
      ∀ m ∈ acc, Op.push m ∈ ops ∨ Op.pushReserved m ∈ ops := by
    intro ops
    induction ops with
    | nil =>
      intro b0 b acc h m hm
      simp only [run, Option.some.injEq, Prod.mk.injEq] at h
      rw [← h.2] at hm; simp at hm
    | cons op ops ih =>
      intro b0 b acc h m hm
      rw [run] at h
      cases hst : step b0 op with
      | none => rw [hst] at h; cases h
      | some r =>
        rw [hst] at h
        simp only at h
        obtain ⟨q, hq, he⟩ := Option.map_eq_some_iff.1 h
        have e2 : r.2 ++ q.2 = acc := (Prod.mk.inj he).2
        rw [← e2] at hm
        rcases List.mem_append.1 hm with hm | hm
        · cases op with
          | push d =>
            simp only [step] at hst
            obtain ⟨x, hx, rfl⟩ := Option.map_eq_some_iff.1 hst
            simp only at hm
            split at hm
            · simp only [List.mem_singleton] at hm; subst hm; simp
            · simp at hm
          | pushReserved d =>
            simp only [step] at hst
            obtain ⟨x, hx, rfl⟩ := Option.map_eq_some_iff.1 hst
            simp only at hm
            split at hm
            · simp only [List.mem_singleton] at hm; subst hm; simp
            · simp at hm
          | reserve n =>
            simp only [step, Option.some.injEq] at hst
            rw [← hst] at hm; simp at hm
          | output =>
            simp only [step] at hst
            obtain ⟨x, hx, rfl⟩ := Option.map_eq_some_iff.1 hst
            simp at hm
        · rcases ih r.1 q.1 q.2 hq m hm with h | h
          · exact .inl (by simp [h])
          · exact .inr (by simp [h])
  refine ⟨b, acc, gs, w, h1, h2, h3, ?_⟩
  intro d hd
  obtain ⟨hd4, hdm⟩ := h4 d hd
  rw [h3] at hd
  obtain ⟨g, hg, j, rfl⟩ := datagrams_mem seq0 gs 0 d hd
  have hwhole : ∀ m ∈ g, WholeMessage cfg.ipsize m := by
    intro m hm
    exact hops m (hacc ops _ b acc h1 m (by rw [h2]; exact List.mem_append_left _ (List.mem_flatten.2 ⟨g, hg, hm⟩)))
  obtain ⟨l, e1, e2⟩ := messages_of cfg.ipsize g
    [(g.flatten.length + 4) / 256 % 256, (g.flatten.length + 4) % 256, (seq0 + j) % 65536 / 256, (seq0 + j) % 65536 % 256] hwhole
  have hlen : (datagram seq0 j g).length = g.flatten.length + 4 := by simp [datagram]
  have h8 : 8 ≤ (datagram seq0 j g).length := by
    have : g ≠ [] := by rintro rfl; simp [datagram] at hd4
    obtain ⟨m, hm⟩ := List.exists_mem_of_ne_nil g this
    have := (hwhole m hm).1
    have hle : m.length ≤ g.flatten.length := by
      obtain ⟨a, c, rfl⟩ := List.append_of_mem hm
      simp only [List.flatten_append, List.flatten_cons, List.length_append]
      omega
    omega
  have hfield : (datagram seq0 j g).getD 0 0 * 256 + (datagram seq0 j g).getD 1 0 = (datagram seq0 j g).length := by
    rw [hlen]
    show (g.flatten.length + 4) / 256 % 256 * 256 + (g.flatten.length + 4) % 256 = _
    omega
  obtain ⟨st, p1, p2⟩ := C12_messages_partial cfg env (datagram seq0 j g) stale (by omega) (by omega)
  rw [if_pos ⟨h8, hfield⟩] at p2
  obtain ⟨l', p3, p4⟩ := p2
  have hl : l' = l := C12_messages_unique p3 e1
  rw [hl] at p4
  exact ⟨g, hg, st, l, p1, p4, e2⟩

/-- two messages of 12 and 16 bytes in one datagram -/
example : WholeMessage 4 (hdr 1 12 [10, 0, 0, 9]) ∧ WholeMessage 4 (hdr 2 16 [10, 0, 0, 9] ++ [1, 2, 3, 4]) := by
  simp [WholeMessage, hdr]

example : (run (addBuffer (List.replicate 60 0) 7 []) [.push (hdr 1 12 [10, 0, 0, 9]), .push (hdr 2 16 [10, 0, 0, 9] ++ [1, 2, 3, 4]), .output]).map
    (fun r => r.1.sent.map fun d => (parsePacket exCfg exEnv (d ++ [1, 2, 3]) d.length).map St.evs) =
    some [some [.call 7 4 12 true, .forward 4 12, .call 7 16 16 true, .call 8 16 16 false]] := by decide

end Verif.Wire
