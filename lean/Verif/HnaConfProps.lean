import Verif.HnaConfLemmas

/-!
# C134: the HNA entries are the networks the configuration file names
# C135: who may use the IPC front end
-/

namespace Verif.HnaConf

open Verif.Ipcalc

/-- the statements name these networks, one by one and in this order -/
def Named : List Stmt → List Net → Prop
  | [], [] => True
  | s :: ss, e :: es => Names s e ∧ Named ss es
  | _, _ => False

/-- the beginning of a file: no `IpVersion`, or one -/
inductive Head : Bool → List Stmt → Prop
  | none : Head false []
  | four : Head false [.ipVersion [4]]
  | six : Head true [.ipVersion [6]]

private theorem file_append (stack : List Nat) (l1 : List Stmt) : ∀ (c : Conf) (l2 : List Stmt) (c1 : Conf),
    file stack c l1 = some c1 → file stack c (l1 ++ l2) = file stack c1 l2 := by
  induction l1 with
  | nil => intro c l2 c1 h; cases h; rfl
  | cons s l1 ih =>
    intro c l2 c1 h
    rw [file] at h
    rw [List.cons_append, file]
    cases hs : stmt stack c s with
    | none => rw [hs] at h; cases h
    | some c' => rw [hs] at h; exact ih c' l2 c1 h

private theorem head_file (stack : List Nat) (v6 : Bool) (hd : List Stmt) (h : Head v6 hd) :
    file stack {} hd = some { v6 := v6 } := by
  cases h <;> rfl

private theorem start (stack : List Nat) (v6 : Bool) (hd ss : List Stmt) (h : Head v6 hd) :
    file stack {} (hd ++ ss) = file stack { v6 := v6 } ss :=
  file_append stack hd {} ss _ (head_file stack v6 hd h)

private theorem file_hna (stack : List Nat) (ss : List Stmt) : ∀ (c c' : Conf),
    (∀ s ∈ ss, Plain s) → (∀ s ∈ ss, ProperMask s) → file stack c ss = some c' →
    c'.v6 = c.v6 ∧ (Flags c → Flags c') ∧
    (∃ es, Named (ss.filter (isHna c.v6)) es ∧ c'.hna = es.reverse ++ c.hna ∧
      (c.v6 = false → ∀ e ∈ es, e.addr.length = 4 ∧ e.len ≤ 32 ∧ ∀ i, e.len ≤ i → i < 32 → bit e.addr i = false)) ∧
    (c.v6 = false → ∃ es, Named (ss.filter isIpc) es ∧ c'.ipc = es.reverse ++ c.ipc ∧ ∀ e ∈ es, e.len ≤ 32) := by
  induction ss with
  | nil =>
    intro c c' _ _ h; cases h
    exact ⟨rfl, id, ⟨[], trivial, rfl, by simp⟩, fun _ => ⟨[], trivial, rfl, by simp⟩⟩
  | cons s ss ih =>
    intro c c' hp hm h
    rw [file] at h
    cases hs : stmt stack c s with
    | none => rw [hs] at h; cases h
    | some c1 =>
      rw [hs] at h
      simp only [] at h
      obtain ⟨e1, e2, e3, e4⟩ := stmt_step stack c c1 s (hp s (by simp)) (hm s (by simp)) hs
      obtain ⟨g1, g2, ⟨es, g3, g4, g5⟩, g6⟩ := ih c1 c' (fun x hx => hp x (by simp [hx])) (fun x hx => hm x (by simp [hx])) h
      rw [e1] at g1 g3 g5 g6
      refine ⟨g1, fun f => g2 (e4 f), ?_, ?_⟩
      · unfold HnaStep at e2
        by_cases hh : isHna c.v6 s = true
        · rw [if_pos hh] at e2
          obtain ⟨e, k1, k2, k3⟩ := e2
          refine ⟨e :: es, ?_, ?_, ?_⟩
          · rw [List.filter_cons_of_pos hh]; exact ⟨k1, g3⟩
          · rw [g4, k2]; simp
          · intro hv x hx
            rcases List.mem_cons.1 hx with rfl | hx
            · exact k3 hv
            · exact g5 hv x hx
        · rw [if_neg hh] at e2
          exact ⟨es, by rw [List.filter_cons_of_neg hh]; exact g3, by rw [g4, e2], g5⟩
      · intro hv
        have e3 := e3 hv
        obtain ⟨es, g3, g4, g5⟩ := g6 hv
        unfold IpcStep at e3
        by_cases hh : isIpc s = true
        · rw [if_pos hh] at e3
          obtain ⟨e, k1, k2, k3⟩ := e3
          refine ⟨e :: es, ?_, ?_, ?_⟩
          · rw [List.filter_cons_of_pos hh]; exact ⟨k1, g3⟩
          · rw [g4, k2]; simp
          · intro x hx
            rcases List.mem_cons.1 hx with rfl | hx
            · exact k3
            · exact g5 x hx
        · rw [if_neg hh] at e3
          exact ⟨es, by rw [List.filter_cons_of_neg hh]; exact g3, by rw [g4, e3], g5⟩

private theorem named_left {ss : List Stmt} : ∀ {es : List Net}, Named ss es → ∀ s ∈ ss, ∃ e ∈ es, Names s e := by
  induction ss with
  | nil => intro es _ s hs; simp at hs
  | cons t ss ih =>
    intro es h s hs
    cases es with
    | nil => exact h.elim
    | cons e es =>
      rcases List.mem_cons.1 hs with rfl | hs
      · exact ⟨e, by simp, h.1⟩
      · obtain ⟨e', he, hn⟩ := ih h.2 s hs
        exact ⟨e', by simp [he], hn⟩

private theorem named_right {ss : List Stmt} : ∀ {es : List Net}, Named ss es → ∀ e ∈ es, ∃ s ∈ ss, Names s e := by
  induction ss with
  | nil =>
    intro es h e he
    cases es with
    | nil => simp at he
    | cons => exact h.elim
  | cons t ss ih =>
    intro es h e he
    cases es with
    | nil => exact h.elim
    | cons e' es =>
      rcases List.mem_cons.1 he with rfl | he
      · exact ⟨t, by simp, h.1⟩
      · obtain ⟨s, hs, hn⟩ := ih h.2 e he
        exact ⟨s, by simp [hs], hn⟩

/-! ### C134 -/

/-- **C134 (partial).**  Full claim: if a configuration file is accepted, the HNA entries are exactly the
networks named by its HNA statements of the IP version in use, and every entry is a network (no address
bits behind the prefix).  What holds: with the `IpVersion` statement (if any) at the beginning, proper
netmasks and integers without leading zero below 2^32, the list read backwards is the networks named, one
for each statement, in order; and the IPv4 entries are networks.  Missing: holes in the mask (`C134_hole`),
bogus masks (`C134_bogus`), a later `IpVersion` (`C134_late6`, `C134_late4`), leading zeros (`C134_octal`),
large integers (`C134_wrap`), IPv6 addresses with host bits (`C134_hostbits6`). -/
theorem C134_networks_partial (stack : List Nat) (v6 : Bool) (hd ss : List Stmt) (c : Conf) (hh : Head v6 hd)
    (hp : ∀ s ∈ ss, Plain s) (hm : ∀ s ∈ ss, ProperMask s) (h : file stack {} (hd ++ ss) = some c) :
    c.v6 = v6 ∧ Named (ss.filter (isHna v6)) c.hna.reverse ∧
      (v6 = false → ∀ e ∈ c.hna, ∀ i, e.len ≤ i → i < 32 → bit e.addr i = false) := by
  rw [start stack v6 hd ss hh] at h
  obtain ⟨h1, -, ⟨es, h3, h4, h5⟩, -⟩ := file_hna stack ss _ c hp hm h
  simp only [List.append_nil] at h4
  refine ⟨h1, by rw [h4, List.reverse_reverse]; exact h3, fun hv e he => ?_⟩
  rw [h4] at he
  exact (h5 hv e (by simpa using he)).2.2

/-- **C134 (partial).**  With plain integers and `IpVersion` (if any) first, a file is accepted exactly if
each HNA entry of the IP version in use has a parsable address, a length within the address size and (IPv4)
no address bits outside the netmask, and the IPC entries are well formed. -/
theorem C134_accepted_partial (stack : List Nat) (v6 : Bool) (hd ss : List Stmt) (hh : Head v6 hd)
    (hp : ∀ s ∈ ss, Plain s) :
    (∃ c, file stack {} (hd ++ ss) = some c) ↔ ∀ s ∈ ss, Good v6 s := by
  rw [start stack v6 hd ss hh]
  have key : ∀ (ss : List Stmt) (c : Conf), c.v6 = v6 → (∀ s ∈ ss, Plain s) →
      ((∃ c', file stack c ss = some c') ↔ ∀ s ∈ ss, Good v6 s) := by
    intro ss
    induction ss with
    | nil => intro c _ _; simp [file]
    | cons s ss ih =>
      intro c hv hp
      have hs := stmt_good stack c s (hp s (by simp))
      rw [hv] at hs
      rw [file, List.forall_mem_cons, ← hs]
      cases he : stmt stack c s with
      | none => simp
      | some c1 =>
        simp only []
        have hv1 : c1.v6 = v6 := by
          have hk : c1.v6 = c.v6 := stmt_v6 stack c c1 s (hp s (by simp)) he
          rw [hk, hv]
        rw [ih c1 hv1 (fun x hx => hp x (by simp [hx]))]
        simp
  exact key ss _ rfl hp

/-- The gateway flag of an IPv4 daemon tells whether the file names the network 0.0.0.0/0. -/
theorem C134_gateway4 (stack : List Nat) (hd ss : List Stmt) (c : Conf) (hh : Head false hd)
    (hp : ∀ s ∈ ss, Plain s) (hm : ∀ s ∈ ss, ProperMask s) (h : file stack {} (hd ++ ss) = some c) :
    c.gw4 = true ↔ ∃ s ∈ ss, isHna false s = true ∧ ∃ e, Names s e ∧ e.len = 0 := by
  rw [start stack false hd ss hh] at h
  obtain ⟨-, h2, ⟨es, h3, h4, h5⟩, -⟩ := file_hna stack ss _ c hp hm h
  have hf : updateGw c = c := h2 rfl
  simp only [List.append_nil] at h4
  have hg : c.gw4 = (updateGw c).gw4 := by rw [hf]
  have h5 := h5 rfl
  rw [hg]
  show (c.hna.any fun h => isV4InetGw (word h.addr) h.len || isMapped4InetGw h.addr h.len) = true ↔ _
  rw [List.any_eq_true, h4]
  constructor
  · rintro ⟨e, he, hgw⟩
    have he : e ∈ es := by simpa using he
    obtain ⟨s, hs, hn⟩ := named_right h3 e he
    rw [List.mem_filter] at hs
    refine ⟨s, hs.1, hs.2, e, hn, ?_⟩
    have hl := (h5 e he).2.1
    simp only [isV4InetGw, isMapped4InetGw, Bool.or_eq_true, Bool.and_eq_true, beq_iff_eq] at hgw
    rcases hgw with hgw | hgw
    · exact hgw.1
    · omega
  · rintro ⟨s, hs, hi, e, hn, hl⟩
    obtain ⟨e', he', hn'⟩ := named_left h3 s (List.mem_filter.2 ⟨hs, hi⟩)
    have hz : e'.len = 0 := by rw [← names_unique s e e' (hp s hs) hn hn']; exact hl
    refine ⟨e', by simpa using he', ?_⟩
    obtain ⟨k1, -, k3⟩ := h5 e' he'
    rw [hz] at k3
    have hw : word e'.addr = 0#32 := word_zero e'.addr k1 (names_bytes s e' (hp s hs) hn') (fun i hi => k3 i (Nat.zero_le _) hi)
    simp [isV4InetGw, hz, hw]

/-- a file with two networks, one given by a mask and one by a length, an IPv6 entry that does not count, and
IPC entries -/
def sampleStmts : List Stmt :=
  [.hna4Mask (some [10, 1, 0, 0]) (some [255, 255, 0, 0]), .hna6 (some (List.replicate 16 0)) [9, 9, 9],
    .ipcHost (some [10, 9, 9, 9]), .ipcMask (some [192, 168, 0, 0]) (some [255, 255, 255, 0]), .hna4Len (some [0, 0, 0, 0]) [0]]

private theorem isMask_of (m : List Nat) (n : Nat) (hb : ∀ b ∈ m, b < 256) (hl : m.length = 4)
    (h : (List.range 32).all (fun i => bit m i == decide (i < n)) = true) : IsMask m n := by
  refine ⟨hb, fun i hi => ?_⟩
  rw [List.all_eq_true] at h
  have := h i (List.mem_range.2 (by omega))
  simpa using this

private theorem sample_plain : ∀ s ∈ sampleStmts, Plain s := by
  have pz : PlainInt [0] := ⟨Or.inl rfl, by decide⟩
  have p9 : PlainInt [9, 9, 9] := ⟨Or.inr (by decide), by decide⟩
  have by4 : ∀ a : List Nat, a.length = 4 → (∀ b ∈ a, b < 256) → ∀ x, some a = some x → Bytes 4 x := by
    intro a h1 h2 x e; cases e; exact ⟨h1, h2⟩
  intro s hs
  simp only [sampleStmts, List.mem_cons, List.not_mem_nil, or_false] at hs
  rcases hs with rfl | rfl | rfl | rfl | rfl
  · exact ⟨by4 _ rfl (by decide), by4 _ rfl (by decide)⟩
  · refine ⟨?_, p9⟩
    intro x e; cases e; exact ⟨rfl, by decide⟩
  · exact by4 _ rfl (by decide)
  · exact ⟨by4 _ rfl (by decide), by4 _ rfl (by decide)⟩
  · exact ⟨by4 _ rfl (by decide), pz⟩

private theorem sample_mask : ∀ s ∈ sampleStmts, ProperMask s := by
  intro s hs
  simp only [sampleStmts, List.mem_cons, List.not_mem_nil, or_false] at hs
  rcases hs with rfl | rfl | rfl | rfl | rfl
  · exact ⟨16, by omega, isMask_of _ _ (by decide) rfl (by decide)⟩
  · trivial
  · trivial
  · exact ⟨24, by omega, isMask_of _ _ (by decide) rfl (by decide)⟩
  · trivial

example : Head false [.ipVersion [4]] ∧ (∀ s ∈ sampleStmts, Plain s) ∧ (∀ s ∈ sampleStmts, ProperMask s) ∧
    file [] {} ([.ipVersion [4]] ++ sampleStmts) =
      some { hna := [⟨[0, 0, 0, 0], 0⟩, ⟨[10, 1, 0, 0], 16⟩], ipc := [⟨[192, 168, 0, 0], 24⟩, ⟨[10, 9, 9, 9], 32⟩], gw4 := true } :=
  ⟨.four, sample_plain, sample_mask, by decide⟩

/-- **C134 is false** for a mask with a hole: 10.0.0.0 255.0.255.0 is announced as 10.0.0.0/8. -/
theorem C134_hole : (file [] {} [.hna4Mask (some [10, 0, 0, 0]) (some [255, 0, 255, 0])]).map Conf.hna =
      some [⟨[10, 0, 0, 0], 8⟩] ∧
    ¬ ∃ e, Names (.hna4Mask (some [10, 0, 0, 0]) (some [255, 0, 255, 0])) e := by
  refine ⟨by decide, ?_⟩
  rintro ⟨e, -, h, -⟩
  exact C11_hole_accepted.2 ⟨e.len, h⟩

/-- **C134 is false** for a bogus mask: 10.0.0.0 255.1.0.0 is accepted with the error value 255 as the prefix
length. -/
theorem C134_bogus : (file [] {} [.hna4Mask (some [10, 0, 0, 0]) (some [255, 1, 0, 0])]).map Conf.hna =
      some [⟨[10, 0, 0, 0], 255⟩] := by decide

/-- **C134 is false** if `IpVersion 6` comes after the IPv6 entries: they are dropped although the daemon runs
IPv6. -/
theorem C134_late6 : (file [] {} [.hna6 (some (List.replicate 16 0)) [0], .ipVersion [6]]).map (fun c => (c.v6, c.hna)) =
    some (true, []) := by decide

/-- **C134 is false** if `IpVersion 6` comes after IPv4 entries: the IPv6 daemon keeps an entry of which only
four address bytes were ever written. -/
theorem C134_late4 : (file [] {} [.hna4Len (some [10, 0, 0, 0]) [8], .ipVersion [6]]).map (fun c => (c.v6, c.hna)) =
    some (true, [⟨[10, 0, 0, 0], 8⟩]) := by decide

/-- **C134 is false** for a leading zero: `10.0.0.0/010` is announced as 10.0.0.0/8. -/
theorem C134_octal : (file [] {} [.hna4Len (some [10, 0, 0, 0]) [0, 1, 0]]).map Conf.hna = some [⟨[10, 0, 0, 0], 8⟩] ∧
    written [0, 1, 0] = 10 := by decide

/-- **C134 is false** for large integers: `10.0.0.0/4294967304` is taken as 10.0.0.0/8. -/
theorem C134_wrap : (file [] {} [.hna4Len (some [10, 0, 0, 0]) [4, 2, 9, 4, 9, 6, 7, 3, 0, 4]]).map Conf.hna =
      some [⟨[10, 0, 0, 0], 8⟩] ∧ written [4, 2, 9, 4, 9, 6, 7, 3, 0, 4] = 4294967304 := by decide

/-- **C134 is false** for IPv6: 2001:db8::1/32 is accepted with its host bits. -/
theorem C134_hostbits6 :
    (file [] {} [.ipVersion [6], .hna6 (some [0x20, 1, 0xd, 0xb8, 0, 0, 0, 0, 0, 0, 0, 0, 0, 0, 0, 1]) [3, 2]]).map Conf.hna =
      some [⟨[0x20, 1, 0xd, 0xb8, 0, 0, 0, 0, 0, 0, 0, 0, 0, 0, 0, 1], 32⟩] ∧
    bit [0x20, 1, 0xd, 0xb8, 0, 0, 0, 0, 0, 0, 0, 0, 0, 0, 0, 1] 127 = true := by decide

/-- The gateway flags of an IPv6 daemon are wrong: `::/0` counts as an IPv4 gateway, not as an IPv6 one; and in
an IPv4 daemon 32.0.0.0/3 counts as an IPv6 gateway. -/
theorem C134_gateway6 :
    (file [] {} [.ipVersion [6], .hna6 (some (List.replicate 16 0)) [0]]).map (fun c => (c.gw4, c.gw6)) = some (true, false) ∧
    (file [] {} [.hna4Len (some [32, 0, 0, 0]) [3]]).map (fun c => (c.gw4, c.gw6)) = some (false, true) := by decide

/-! ### C135 -/

private theorem anyNet_spec (peer : BitVec 32) (ns : List Net) (h : ∀ n ∈ ns, n.len ≤ 32) :
    ∃ r, anyNet false peer ns = some r ∧
      (r = true ↔ ∃ n ∈ ns, ∀ i, i < n.len → peer.getMsbD i = (word n.addr).getMsbD i) := by
  induction ns with
  | nil => exact ⟨false, rfl, by simp⟩
  | cons n ns ih =>
    obtain ⟨r, h1, h2⟩ := ih fun x hx => h x (by simp [hx])
    obtain ⟨b, h3, h4⟩ := C47_ipv4 peer (word n.addr) n.len (h n (by simp))
    rw [anyNet]
    have e : inNet false peer n = some b := by rw [inNet, if_neg (by simp)]; exact h3
    rw [e]
    cases b with
    | true => exact ⟨true, rfl, by simp; exact Or.inl (h4.1 rfl)⟩
    | false =>
      refine ⟨r, h1, ?_⟩
      rw [h2]
      simp only [Bool.false_eq_true, false_iff] at h4
      constructor
      · rintro ⟨x, hx, hy⟩; exact ⟨x, by simp [hx], hy⟩
      · rintro ⟨x, hx, hy⟩
        rcases List.mem_cons.1 hx with rfl | hx
        · exact absurd hy h4
        · exact ⟨x, hx, hy⟩

/-- **C135 (partial).**  Full claim: the front end is open exactly for 127.0.0.1 and for the hosts and networks
named by the IPC block.  What holds: in an IPv4 daemon, with proper netmasks and plain integers, for every
peer.  Missing: masks with holes (`C135_hole`), bogus masks (`C135_bogus`), and the hosts of an IPv6 daemon
(`C135_host6`). -/
theorem C135_allowed_partial (stack : List Nat) (hd ss : List Stmt) (c : Conf) (peer : BitVec 32) (hh : Head false hd)
    (hp : ∀ s ∈ ss, Plain s) (hm : ∀ s ∈ ss, ProperMask s) (h : file stack {} (hd ++ ss) = some c) :
    ∃ r, allowed c peer = some r ∧
      (r = true ↔ peer = 0x7F000001#32 ∨ ∃ s ∈ ss, isIpc s = true ∧ ∃ e, Names s e ∧
        ∀ i, i < e.len → peer.getMsbD i = (word e.addr).getMsbD i) := by
  rw [start stack false hd ss hh] at h
  obtain ⟨hv, -, -, h2⟩ := file_hna stack ss _ c hp hm h
  obtain ⟨es, h3, h4, h5⟩ := h2 rfl
  simp only [List.append_nil] at h4
  unfold allowed
  by_cases hl : peer = 0x7F000001#32
  · rw [if_pos hl]; exact ⟨true, rfl, by simp [hl]⟩
  · rw [if_neg hl, hv]
    obtain ⟨r, k1, k2⟩ := anyNet_spec peer c.ipc (by rw [h4]; intro n hn; exact h5 n (by simpa using hn))
    refine ⟨r, k1, k2.trans ?_⟩
    rw [h4]
    constructor
    · rintro ⟨e, he, hb⟩
      obtain ⟨s, hs, hn⟩ := named_right h3 e (by simpa using he)
      rw [List.mem_filter] at hs
      exact Or.inr ⟨s, hs.1, hs.2, e, hn, hb⟩
    · rintro (hx | ⟨s, hs, hi, e, hn, hb⟩)
      · exact absurd hx hl
      · obtain ⟨e', he', hn'⟩ := named_left h3 s (List.mem_filter.2 ⟨hs, hi⟩)
        have hu := names_unique s e e' (hp s hs) hn hn'
        exact ⟨e', by simpa using he', by rw [← hu]; exact hb⟩

/-- with the file above: the host, an address of the network and 127.0.0.1 are let in, others are not -/
example : (file [] {} sampleStmts).map (fun c => [allowed c (word [10, 9, 9, 9]), allowed c (word [192, 168, 0, 77]),
      allowed c (word [127, 0, 0, 1]), allowed c (word [10, 9, 9, 8]), allowed c (word [192, 168, 1, 77])]) =
    some [some true, some true, some true, some false, some false] := by decide

/-- **C135 is false** for a mask with a hole: `Net 10.0.0.0 255.0.255.0` lets 10.1.2.3 in. -/
theorem C135_hole :
    (file [] {} [.ipcMask (some [10, 0, 0, 0]) (some [255, 0, 255, 0])]).bind (fun c => allowed c (word [10, 1, 2, 3])) =
      some true ∧ word [10, 1, 2, 3] &&& word [255, 0, 255, 0] ≠ word [10, 0, 0, 0] := by decide

/-- **C135 is false** for a bogus mask: the check is undefined for every peer but 127.0.0.1. -/
theorem C135_bogus (peer : BitVec 32) (h : peer ≠ 0x7F000001#32) :
    (file [] {} [.ipcMask (some [10, 0, 0, 0]) (some [255, 1, 0, 0])]).map (fun c => allowed c peer) = some none := by
  have e : file [] {} [.ipcMask (some [10, 0, 0, 0]) (some [255, 1, 0, 0])] = some { ipc := [⟨[10, 0, 0, 0], 255⟩] } := by decide
  rw [e]
  show some (allowed { ipc := [⟨[10, 0, 0, 0], 255⟩] } peer) = some none
  rw [allowed, if_neg h]
  rfl

/-- **C135 is false** for an IPv6 daemon: `Host 10.9.9.9` is stored with length 128, and when that very host
connects the comparison runs into memory that was never written. -/
theorem C135_host6 :
    (file [] {} [.ipVersion [6], .ipcHost (some [10, 9, 9, 9])]).map (fun c => (c.ipc, allowed c (word [10, 9, 9, 9]))) =
      some ([⟨[10, 9, 9, 9], 128⟩], none) := by decide

/-- the last connection in a sequence of events -/
def lastAccept (evs : List Ev) : Option (Nat × Bool) :=
  evs.foldl (fun a e => match e with
    | .accept fd ok => some (fd, ok)
    | .send _ => a) none

private theorem lastAccept_append (evs : List Ev) (e : Ev) :
    lastAccept (evs ++ [e]) = match e with
      | .accept fd ok => some (fd, ok)
      | .send _ => lastAccept evs := by
  unfold lastAccept
  rw [List.foldl_append]
  cases e <;> rfl

private theorem conn_last (evs : List Ev) : ∀ fd, (evs.foldl step {}).conn = some fd → lastAccept evs = some (fd, true) := by
  have key : ∀ (r : List Ev) (evs : List Ev), r = evs.reverse → ∀ fd, (evs.foldl step {}).conn = some fd → lastAccept evs = some (fd, true) := by
    intro r
    induction r with
    | nil =>
      intro evs he fd h
      have : evs = [] := by simpa using he.symm
      subst this; cases h
    | cons e r ih =>
      intro evs he fd h
      have hev : evs = r.reverse ++ [e] := by
        have := congrArg List.reverse he
        simpa using this.symm
      subst hev
      rw [List.foldl_append] at h
      rw [lastAccept_append]
      have ih := ih r.reverse (by simp)
      cases e with
      | accept g ok =>
        have h : (accept (r.reverse.foldl step {}) g ok).conn = some fd := h
        unfold accept at h
        cases ok with
        | true => rw [if_pos rfl] at h; cases h; rfl
        | false => rw [if_neg (by simp)] at h; cases h
      | send up =>
        have h : (send (r.reverse.foldl step {}) up).conn = some fd := h
        unfold send at h
        refine ih fd ?_
        split at h
        · split at h
          · exact h
          · cases h
        · exact h
  exact key evs.reverse evs rfl

/-- **C135.**  Data goes only to a connection that was allowed: whatever the sequence of connections and
messages, each event sends either nothing or one piece of data, and then to the connection accepted last, which
passed the check. -/
theorem C135_only_allowed (evs : List Ev) (e : Ev) :
    ((evs ++ [e]).foldl step {}).sent = (evs.foldl step {}).sent ∨
      ∃ fd, ((evs ++ [e]).foldl step {}).sent = some fd :: (evs.foldl step {}).sent ∧
        lastAccept (evs ++ [e]) = some (fd, true) := by
  rw [List.foldl_append, lastAccept_append]
  obtain ⟨s, hs⟩ : ∃ s, s = evs.foldl step {} := ⟨_, rfl⟩
  have hc := conn_last evs
  rw [← hs] at hc ⊢
  cases e with
  | accept fd ok =>
    show (accept s fd ok).sent = s.sent ∨ ∃ g, (accept s fd ok).sent = some g :: s.sent ∧ _
    unfold accept
    cases ok with
    | true => right; exact ⟨fd, rfl, rfl⟩
    | false => left; rfl
  | send up =>
    show (send s up).sent = s.sent ∨ ∃ g, (send s up).sent = some g :: s.sent ∧ _
    unfold send
    by_cases ha : s.active = true
    · rw [if_pos ha]
      by_cases hu : (up && s.conn.isSome) = true
      · rw [if_pos hu]
        right
        cases hcn : s.conn with
        | none => rw [hcn] at hu; simp at hu
        | some fd => exact ⟨fd, rfl, hc fd hcn⟩
      · rw [if_neg hu]; left; rfl
    · rw [if_neg ha]; left; rfl

example : ([Ev.accept 7 true, .send true, .accept 8 false, .send true, .accept 9 true, .send true].foldl step {}).sent =
    [some 9, some 9, some 7, some 7] := by decide

/-- **C135 (partial).**  Full claim: an allowed front end that takes its data is served until another allowed
one connects.  What holds: as long as nobody else connects, every message reaches it.  Missing: refused
connections (`C135_cut`). -/
theorem C135_served_partial (s : Ipc) (fd n : Nat) :
    ((Ev.accept fd true :: List.replicate n (Ev.send true)).foldl step s).sent = List.replicate (n + 1) (some fd) ++ s.sent := by
  have key : ∀ n (t : Ipc), t.active = true → t.conn = some fd →
      ((List.replicate n (Ev.send true)).foldl step t).sent = List.replicate n (some fd) ++ t.sent := by
    intro n
    induction n with
    | zero => intro t _ _; rfl
    | succ n ih =>
      intro t h1 h2
      rw [List.replicate_succ, List.foldl_cons]
      have e : step t (.send true) = { t with sent := t.conn :: t.sent } := by
        show send t true = _
        unfold send
        rw [if_pos h1, if_pos (by rw [h2]; rfl)]
      rw [e, ih { t with sent := t.conn :: t.sent } h1 h2]
      show List.replicate n (some fd) ++ (t.conn :: t.sent) = _
      rw [h2, List.replicate_succ']
      simp
  rw [List.foldl_cons]
  rw [key n _ rfl rfl]
  show List.replicate n (some fd) ++ (some fd :: s.sent) = _
  rw [List.replicate_succ']
  simp

/-- **C135.**  A front end that no longer takes data is closed, once, and from then on nothing is sent until
the next connection. -/
theorem C135_gone (evs : List Ev) (fd : Nat) (ups : List Bool) (hc : (evs.foldl step {}).conn = some fd)
    (ha : (evs.foldl step {}).active = true) :
    (((evs ++ [Ev.send false]) ++ ups.map Ev.send).foldl step {}) =
      { conn := none, active := false, sent := (evs.foldl step {}).sent, closed := fd :: (evs.foldl step {}).closed } := by
  rw [List.foldl_append, List.foldl_append]
  obtain ⟨s, hs⟩ : ∃ s, s = evs.foldl step {} := ⟨_, rfl⟩
  rw [← hs] at hc ha ⊢
  have e : [Ev.send false].foldl step s = { s with conn := none, active := false, closed := fd :: s.closed } := by
    show send s false = _
    unfold send
    rw [if_pos ha, if_neg (by simp), hc]
    rfl
  rw [e]
  induction ups with
  | nil => rfl
  | cons u ups ih => exact ih

example : ([Ev.accept 7 true].foldl step {}).conn = some 7 ∧ ([Ev.accept 7 true].foldl step {}).active = true := by decide

/-- **C135 is false**: a connection attempt of a host that is not allowed ends the service of the allowed front
end 7, which still takes data: its socket number is overwritten (and never closed), the next message fails. -/
theorem C135_cut :
    [Ev.accept 7 true, .accept 8 false, .send true, .send true].foldl step {} =
      { conn := none, active := false, sent := [some 7], closed := [8] } := by decide

end Verif.HnaConf
