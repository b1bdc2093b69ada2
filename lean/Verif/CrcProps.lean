import Verif.CrcLemmas
import Verif.HistModel

/-!
# C70 — the fingerprint of multicast packets
-/

namespace Verif.Crc

/-! ## The bit-serial CRC-32, without tables -/

/-- one message bit enters the shift register (reflected IEEE 802.3 generator) -/
def serial (r : BitVec 32) (m : Bool) : BitVec 32 :=
  if r.getLsbD 0 ^^ m then (r >>> 1) ^^^ 0xedb88320#32 else r >>> 1

/-- message bits in transmission order: least significant bit of every byte first -/
def bits (bytes : List (BitVec 8)) : List Bool :=
  bytes.flatMap fun b => [b.getLsbD 0, b.getLsbD 1, b.getLsbD 2, b.getLsbD 3,
    b.getLsbD 4, b.getLsbD 5, b.getLsbD 6, b.getLsbD 7]

/-- CRC-32 of a message: register preset to ones, result complemented -/
def crc32 (bytes : List (BitVec 8)) : BitVec 32 := ~~~ (bits bytes).foldl serial 0xffffffff#32

/-- The three header bytes that routers change: TTL and header checksum. -/
def Volatile (i : Nat) : Prop := i = 8 ∨ i = 10 ∨ i = 11

private def bit (m : Bool) : BitVec 32 := if m then 1#32 else 0#32

private theorem serial_eq (r : BitVec 32) (m : Bool) : serial r m = bitStep (r ^^^ bit m) := by
  unfold serial bit
  cases m
  · simp only [Bool.xor_false, Bool.false_eq_true, if_false, BitVec.xor_zero]
    cases h : r.getLsbD 0
    · rw [bitStep_even h]; simp
    · rw [bitStep_odd h]; simp [poly]
  · rw [if_pos rfl]
    have h1 : (r ^^^ 1#32).getLsbD 0 = !r.getLsbD 0 := by rw [BitVec.getLsbD_xor]; simp
    have h2 : (r ^^^ 1#32) >>> 1 = r >>> 1 := by
      rw [BitVec.ushiftRight_xor_distrib]
      rw [show (1#32) >>> 1 = 0#32 by decide, BitVec.xor_zero]
    cases h : r.getLsbD 0
    · rw [h] at h1; rw [bitStep_odd h1, h2]; simp [poly]
    · rw [h] at h1; rw [bitStep_even h1, h2]; simp

private theorem bit_steps (n : Nat) (m : Bool) (hn : n < 32) : bitSteps n (bit m <<< n) = bit m := by
  rw [bitSteps_shift]
  · apply BitVec.eq_of_getLsbD_eq
    intro i hi
    simp only [BitVec.getLsbD_ushiftRight, BitVec.getLsbD_shiftLeft]
    unfold bit
    cases m
    · simp
    · rw [if_pos rfl, BitVec.getLsbD_one]
      by_cases h0 : i = 0
      · subst h0; simp [hn]
      · simp [h0]
  · intro i hi
    simp only [BitVec.getLsbD_shiftLeft]
    simp [hi]

private theorem serial_byte (r : BitVec 32) (b : BitVec 8) :
    [b.getLsbD 0, b.getLsbD 1, b.getLsbD 2, b.getLsbD 3,
      b.getLsbD 4, b.getLsbD 5, b.getLsbD 6, b.getLsbD 7].foldl serial r = byteStep r b := by
  simp only [List.foldl_cons, List.foldl_nil, serial_eq]
  have e : ∀ (n : Nat) (x : BitVec 32) (m : Bool), n < 32 →
      bitStep (bitSteps n x ^^^ bit m) = bitSteps (n + 1) (x ^^^ (bit m <<< n)) := by
    intro n x m hn
    rw [bitSteps_add n 1, bitSteps_xor n x, bit_steps n m hn]
    rfl
  have e0 : bitStep (r ^^^ bit (b.getLsbD 0)) = bitSteps 1 (r ^^^ bit (b.getLsbD 0)) := rfl
  rw [e0, e 1 _ _ (by omega), e 2 _ _ (by omega), e 3 _ _ (by omega), e 4 _ _ (by omega),
    e 5 _ _ (by omega), e 6 _ _ (by omega), e 7 _ _ (by omega), byteStep_eq]
  congr 1
  have hb : b.zeroExtend 32 = bit (b.getLsbD 0) ^^^ (bit (b.getLsbD 1) <<< 1) ^^^ (bit (b.getLsbD 2) <<< 2)
      ^^^ (bit (b.getLsbD 3) <<< 3) ^^^ (bit (b.getLsbD 4) <<< 4) ^^^ (bit (b.getLsbD 5) <<< 5)
      ^^^ (bit (b.getLsbD 6) <<< 6) ^^^ (bit (b.getLsbD 7) <<< 7) := by
    have : ∀ b : BitVec 8, b.zeroExtend 32 = bit (b.getLsbD 0) ^^^ (bit (b.getLsbD 1) <<< 1) ^^^ (bit (b.getLsbD 2) <<< 2)
      ^^^ (bit (b.getLsbD 3) <<< 3) ^^^ (bit (b.getLsbD 4) <<< 4) ^^^ (bit (b.getLsbD 5) <<< 5)
      ^^^ (bit (b.getLsbD 6) <<< 6) ^^^ (bit (b.getLsbD 7) <<< 7) := by decide +kernel
    exact this b
  rw [hb]
  simp only [BitVec.xor_assoc]

private theorem serial_bytes (bs : List (BitVec 8)) (r : BitVec 32) :
    (bits bs).foldl serial r = bs.foldl byteStep r := by
  induction bs generalizing r with
  | nil => rfl
  | cons b bs ih =>
    unfold bits at ih ⊢
    rw [List.flatMap_cons, List.foldl_append, serial_byte, ih, List.foldl_cons]

private theorem not_eq_xor (x : BitVec 32) : x ^^^ 0xffffffff#32 = ~~~ x := by
  rw [show (0xffffffff#32 : BitVec 32) = BitVec.allOnes 32 by decide]
  exact BitVec.xor_allOnes

private theorem patch_len (a b c : BitVec 8) (p : List (BitVec 8)) : (patch a b c p).length = p.length := by
  unfold patch; simp

private theorem patch_get (a b c : BitVec 8) (p : List (BitVec 8)) (i : Nat) (hi : ¬ Volatile i) :
    (patch a b c p)[i]? = p[i]? := by
  unfold patch Volatile at *
  rw [List.getElem?_set_ne (by omega), List.getElem?_set_ne (by omega), List.getElem?_set_ne (by omega)]

private theorem patch_patch (a b c a' b' c' : BitVec 8) (p : List (BitVec 8))
    (h8 : p[8]? = some a') (h10 : p[10]? = some b') (h11 : p[11]? = some c') :
    patch a' b' c' (patch a b c p) = p := by
  apply List.ext_getElem?
  intro i
  by_cases hv : Volatile i
  · unfold patch
    have hl : 11 < p.length := (List.getElem?_eq_some_iff.1 h11).1
    rcases hv with rfl | rfl | rfl
    · rw [List.getElem?_set_ne (by omega), List.getElem?_set_ne (by omega),
        List.getElem?_set_self (by simp; omega), h8]
    · rw [List.getElem?_set_ne (by omega), List.getElem?_set_self (by simp; omega), h10]
    · rw [List.getElem?_set_self (by simp; omega), h11]
  · rw [patch_get _ _ _ _ _ hv, patch_get _ _ _ _ _ hv]

private theorem patch_congr (a b c : BitVec 8) (p q : List (BitVec 8)) (n : Nat) (hl : 12 ≤ p.length) (hl' : 12 ≤ q.length)
    (h : ∀ i, i < n → ¬ Volatile i → p[i]? = q[i]?) :
    (patch a b c p).take n = (patch a b c q).take n := by
  apply List.ext_getElem?
  intro i
  by_cases hn : i < n
  · rw [List.getElem?_take_of_lt hn, List.getElem?_take_of_lt hn]
    by_cases hv : Volatile i
    · unfold patch
      rcases hv with rfl | rfl | rfl
      · rw [List.getElem?_set_ne (by omega), List.getElem?_set_ne (by omega), List.getElem?_set_self (by omega),
          List.getElem?_set_ne (by omega), List.getElem?_set_ne (by omega), List.getElem?_set_self (by omega)]
      · rw [List.getElem?_set_ne (by omega), List.getElem?_set_self (by simp; omega),
          List.getElem?_set_ne (by omega), List.getElem?_set_self (by simp; omega)]
      · rw [List.getElem?_set_self (by simp; omega), List.getElem?_set_self (by simp; omega)]
    · rw [patch_get _ _ _ _ _ hv, patch_get _ _ _ _ _ hv]
      exact h i hn hv
  · rw [List.getElem?_eq_none (by simp; omega), List.getElem?_eq_none (by simp; omega)]

private theorem packet_eq (debug : Bool) (p : List (BitVec 8)) (len : Nat) (h : debug = true → 0 < len)
    (hl : 12 ≤ p.length) (hm : min len 256 ≤ p.length) :
    packetCrc debug p len = .done (calcCrc ((patch 0xff 0x5a 0x5a p).take (min len 256))) p := by
  unfold packetCrc
  have hd : (debug && len == 0) = false := by
    cases debug
    · rfl
    · have := h rfl
      simp; omega
  rw [hd]
  have h8 : p[8]? = some p[8] := List.getElem?_eq_getElem (by omega)
  have h10 : p[10]? = some p[10] := List.getElem?_eq_getElem (by omega)
  have h11 : p[11]? = some p[11] := List.getElem?_eq_getElem (by omega)
  rw [h8, h10, h11]
  simp only [Bool.false_eq_true, if_false]
  rw [if_pos hm, patch_patch _ _ _ _ _ _ p h8 h10 h11]

/-! ## Theorems -/

/-- The table-driven checksum is the textbook bit-serial CRC-32 of the bytes. -/
theorem C70_table_is_crc32 (bytes : List (BitVec 8)) : calcCrc bytes = crc32 bytes := by
  unfold calcCrc crc32
  rw [serial_bytes, not_eq_xor]

/-- the check value of CRC-32, "123456789" -/
example : calcCrc [0x31, 0x32, 0x33, 0x34, 0x35, 0x36, 0x37, 0x38, 0x39] = 0xcbf43926#32 := by decide +kernel

/-- When the fingerprint is computed: the three header bytes and the bytes counted by the
length (at most 256) have to exist, and a build with assertions stops on length zero.  The
packet is left as it was. -/
theorem C70_defined (debug : Bool) (p : List (BitVec 8)) (len : Nat) :
    (∃ crc p', packetCrc debug p len = .done crc p') ↔
      (debug = true → 0 < len) ∧ 12 ≤ p.length ∧ min len 256 ≤ p.length := by
  constructor
  · rintro ⟨crc, p', h⟩
    unfold packetCrc at h
    have h1 : debug = true → 0 < len := by
      intro hd
      rcases Nat.eq_zero_or_pos len with rfl | hp
      · rw [hd] at h; simp at h
      · exact hp
    have hd : (debug && len == 0) = false := by
      cases debug
      · rfl
      · have := h1 rfl
        simp; omega
    rw [hd] at h
    simp only [Bool.false_eq_true, if_false] at h
    by_cases hl : 12 ≤ p.length
    · refine ⟨h1, hl, ?_⟩
      rw [List.getElem?_eq_getElem (by omega), List.getElem?_eq_getElem (by omega),
        List.getElem?_eq_getElem (by omega)] at h
      by_cases hm : min len 256 ≤ p.length
      · exact hm
      · simp only [] at h; rw [if_neg hm] at h; cases h
    · exfalso
      rw [show p[11]? = none from List.getElem?_eq_none (by omega)] at h
      cases h8 : p[8]? <;> cases h10 : p[10]? <;> rw [h8, h10] at h <;> cases h
  · rintro ⟨h1, h2, h3⟩
    exact ⟨_, _, packet_eq debug p len h1 h2 h3⟩

/-- The packet itself comes back unchanged. -/
theorem C70_packet_unchanged (debug : Bool) (p p' : List (BitVec 8)) (len : Nat) (crc : BitVec 32)
    (h : packetCrc debug p len = .done crc p') : p' = p := by
  obtain ⟨h1, h2, h3⟩ := (C70_defined debug p len).1 ⟨_, _, h⟩
  rw [packet_eq debug p len h1 h2 h3] at h
  exact (Out.done.inj h).2.symm

/-- Copies of a packet that differ only in TTL and header checksum have the same
fingerprint. -/
theorem C70_ttl_irrelevant (debug : Bool) (p q : List (BitVec 8)) (len : Nat) (crc : BitVec 32) (p' : List (BitVec 8))
    (hlen : p.length = q.length) (h : ∀ i, ¬ Volatile i → p[i]? = q[i]?)
    (hp : packetCrc debug p len = .done crc p') : packetCrc debug q len = .done crc q := by
  obtain ⟨h1, h2, h3⟩ := (C70_defined debug p len).1 ⟨_, _, hp⟩
  rw [packet_eq debug p len h1 h2 h3] at hp
  rw [packet_eq debug q len h1 (by omega) (by omega), ← (Out.done.inj hp).1,
    patch_congr _ _ _ p q _ h2 (by omega) (fun i _ hv => h i hv)]

private def hdr (ttl c0 c1 : BitVec 8) : List (BitVec 8) :=
  [0x45, 0, 0, 20, 0, 7, 0, 0, ttl, 17, c0, c1, 10, 0, 0, 1, 224, 0, 0, 5]

example : hdr 64 1 2 ≠ hdr 63 2 2 ∧
    packetCrc true (hdr 64 1 2) 20 = .done 0xf4616de4#32 (hdr 64 1 2) ∧
    packetCrc true (hdr 63 2 2) 20 = .done 0xf4616de4#32 (hdr 63 2 2) := by decide +kernel

/-- Packets that differ, apart from TTL and header checksum, in up to four neighbouring
bytes within the part that is looked at have different fingerprints. -/
theorem C70_burst_detected (debug : Bool) (p q : List (BitVec 8)) (len k i : Nat)
    (c d : BitVec 32) (p' q' : List (BitVec 8))
    (hlen : p.length = q.length) (hk : k + 4 ≤ min len 256)
    (hsame : ∀ j, ¬ (k ≤ j ∧ j < k + 4) → ¬ Volatile j → p[j]? = q[j]?)
    (hi : k ≤ i ∧ i < k + 4) (hv : ¬ Volatile i) (hdiff : p[i]? ≠ q[i]?)
    (hp : packetCrc debug p len = .done c p') (hq : packetCrc debug q len = .done d q') : c ≠ d := by
  obtain ⟨h1, h2, h3⟩ := (C70_defined debug p len).1 ⟨_, _, hp⟩
  rw [packet_eq debug p len h1 h2 h3] at hp
  rw [packet_eq debug q len h1 (by omega) (by omega)] at hq
  obtain ⟨n, hn⟩ : ∃ n, min len 256 = n := ⟨_, rfl⟩
  rw [hn] at hp hq hk h3
  rw [← (Out.done.inj hp).1, ← (Out.done.inj hq).1]
  obtain ⟨P, hP⟩ : ∃ P, (patch 0xff 0x5a 0x5a p).take n = P := ⟨_, rfl⟩
  obtain ⟨Q, hQ⟩ : ∃ Q, (patch 0xff 0x5a 0x5a q).take n = Q := ⟨_, rfl⟩
  rw [hP, hQ]
  have lP : P.length = n := by rw [← hP, List.length_take, patch_len]; omega
  have lQ : Q.length = n := by rw [← hQ, List.length_take, patch_len]; omega
  have gPQ : ∀ j, ¬ (k ≤ j ∧ j < k + 4) → P[j]? = Q[j]? := by
    intro j hj
    by_cases hjn : j < n
    · by_cases hvj : Volatile j
      · -- both have the fixed values there
        have e : ∀ r : List (BitVec 8), 12 ≤ r.length → (patch 0xff 0x5a 0x5a r)[j]? =
            some (if j = 8 then 0xff else 0x5a) := by
          intro r hr
          unfold patch
          rcases hvj with rfl | rfl | rfl
          · rw [List.getElem?_set_ne (by omega), List.getElem?_set_ne (by omega), List.getElem?_set_self (by omega)]
            rfl
          · rw [List.getElem?_set_ne (by omega), List.getElem?_set_self (by simp; omega)]
            rfl
          · rw [List.getElem?_set_self (by simp; omega)]
            rfl
        rw [← hP, ← hQ, List.getElem?_take_of_lt hjn, List.getElem?_take_of_lt hjn, e p h2, e q (by omega)]
      · rw [← hP, ← hQ, List.getElem?_take_of_lt hjn, List.getElem?_take_of_lt hjn,
          patch_get _ _ _ _ _ hvj, patch_get _ _ _ _ _ hvj]
        exact hsame j hj hvj
    · rw [List.getElem?_eq_none (by omega), List.getElem?_eq_none (by omega)]
  have hne : P[i]? ≠ Q[i]? := by
    rw [← hP, ← hQ, List.getElem?_take_of_lt (by omega), List.getElem?_take_of_lt (by omega),
      patch_get _ _ _ _ _ hv, patch_get _ _ _ _ _ hv]
    exact hdiff
  -- split both lists around the window
  have split : ∀ R : List (BitVec 8), R.length = n → ∃ b0 b1 b2 b3,
      R = R.take k ++ ([b0, b1, b2, b3] ++ R.drop (k + 4)) ∧
      R[k]? = some b0 ∧ R[k+1]? = some b1 ∧ R[k+2]? = some b2 ∧ R[k+3]? = some b3 := by
    intro R hR
    refine ⟨R[k], R[k+1], R[k+2], R[k+3], ?_, List.getElem?_eq_getElem (by omega), List.getElem?_eq_getElem (by omega),
      List.getElem?_eq_getElem (by omega), List.getElem?_eq_getElem (by omega)⟩
    conv => lhs; rw [← List.take_append_drop k R]
    congr 1
    rw [List.drop_eq_getElem_cons (by omega), List.drop_eq_getElem_cons (by omega),
      List.drop_eq_getElem_cons (by omega), List.drop_eq_getElem_cons (by omega)]
    rfl
  obtain ⟨a0, a1, a2, a3, hPs, A0, A1, A2, A3⟩ := split P lP
  obtain ⟨b0, b1, b2, b3, hQs, B0, B1, B2, B3⟩ := split Q lQ
  have htake : P.take k = Q.take k := by
    apply List.ext_getElem?
    intro j
    by_cases hj : j < k
    · rw [List.getElem?_take_of_lt hj, List.getElem?_take_of_lt hj]; exact gPQ j (by omega)
    · rw [List.getElem?_eq_none (by simp; omega), List.getElem?_eq_none (by simp; omega)]
  have hdrop : P.drop (k + 4) = Q.drop (k + 4) := by
    apply List.ext_getElem?
    intro j
    rw [List.getElem?_drop, List.getElem?_drop]; exact gPQ _ (by omega)
  intro heq
  unfold calcCrc at heq
  have heq2 : P.foldl byteStep 0xffffffff#32 = Q.foldl byteStep 0xffffffff#32 := by
    rw [not_eq_xor, not_eq_xor] at heq
    have := congrArg (fun x => ~~~ x) heq
    simpa using this
  rw [hPs, hQs, List.foldl_append, List.foldl_append, List.foldl_append, List.foldl_append, htake, hdrop] at heq2
  have heq3 := foldl_inj heq2
  rw [four_steps, four_steps] at heq3
  have heq4 := bitSteps_inj 32 heq3
  have hw : word a0 a1 a2 a3 = word b0 b1 b2 b3 := by
    obtain ⟨r, hr⟩ : ∃ r, (Q.take k).foldl byteStep 0xffffffff#32 = r := ⟨_, rfl⟩
    rw [hr] at heq4
    have := congrArg (fun x => r ^^^ x) heq4
    simp only [← BitVec.xor_assoc, BitVec.xor_self, BitVec.zero_xor] at this
    exact this
  obtain ⟨e0, e1, e2, e3⟩ := word_inj hw
  apply hne
  have : i = k ∨ i = k + 1 ∨ i = k + 2 ∨ i = k + 3 := by omega
  rcases this with rfl | rfl | rfl | rfl
  · rw [A0, B0, e0]
  · rw [A1, B1, e1]
  · rw [A2, B2, e2]
  · rw [A3, B3, e3]

/-- the IP identification field (bytes 4, 5) of two packets of one flow -/
example : packetCrc true (hdr 64 1 2) 20 ≠ packetCrc true ((hdr 64 1 2).set 5 8) 20 ∧
    (∀ j, ¬ (4 ≤ j ∧ j < 4 + 4) → ¬ Volatile j → (hdr 64 1 2)[j]? = ((hdr 64 1 2).set 5 8)[j]?) ∧
    (hdr 64 1 2)[5]? ≠ ((hdr 64 1 2).set 5 8)[5]? := by
  refine ⟨by decide +kernel, fun j hj _ => ?_, by decide⟩
  rw [List.getElem?_set_ne (by omega)]

/-- Only the first 256 bytes count: packets that agree there (TTL and header checksum
apart) have the same fingerprint, whatever follows. -/
theorem C70_tail_ignored (debug : Bool) (p q : List (BitVec 8)) (m n : Nat)
    (hm : 256 ≤ m) (hn : 256 ≤ n) (hmp : m ≤ p.length) (hnq : n ≤ q.length)
    (h : ∀ i, i < 256 → ¬ Volatile i → p[i]? = q[i]?) :
    ∃ crc, packetCrc debug p m = .done crc p ∧ packetCrc debug q n = .done crc q := by
  refine ⟨_, packet_eq debug p m (fun _ => by omega) (by omega) (by omega), ?_⟩
  rw [packet_eq debug q n (fun _ => by omega) (by omega) (by omega)]
  rw [show min m 256 = 256 by omega, show min n 256 = 256 by omega,
    patch_congr _ _ _ p q 256 (by omega) (by omega) h]

/-- So "different packets have different fingerprints" is false of the code, and the
second of two different packets is dropped as a duplicate of the first. -/
theorem C70_different_packets_confused :
    ∃ p q : List (BitVec 8), ∃ crc, p.length = 257 ∧ q.length = 257 ∧ (∃ i, ¬ Volatile i ∧ p[i]? ≠ q[i]?) ∧
      packetCrc false p 257 = .done crc p ∧ packetCrc false q 257 = .done crc q ∧
      Hist.answer [.mark 0 crc.toNat] 1 crc.toNat = true := by
  have hl : ∀ b : BitVec 8, (List.replicate 256 (0 : BitVec 8) ++ [b]).length = 257 := by
    intro b; rw [List.length_append, List.length_replicate]; rfl
  obtain ⟨crc, h1, h2⟩ := C70_tail_ignored false (List.replicate 256 0 ++ [1]) (List.replicate 256 0 ++ [2]) 257 257
    (by omega) (by omega) (by rw [hl]; omega) (by rw [hl]; omega) (by
      intro i hi _
      rw [List.getElem?_append_left (by rw [List.length_replicate]; exact hi), List.getElem?_append_left (by rw [List.length_replicate]; exact hi)])
  refine ⟨_, _, crc, hl 1, hl 2, ⟨256, ?_, ?_⟩, h1, h2, ?_⟩
  · unfold Volatile; omega
  · rw [List.getElem?_append_right (by rw [List.length_replicate]; exact Nat.le_refl _),
      List.getElem?_append_right (by rw [List.length_replicate]; exact Nat.le_refl _), List.length_replicate]
    decide
  · unfold Hist.answer Hist.run
    simp only [List.foldl_cons, List.foldl_nil, Hist.step]
    unfold Hist.checkAndMark Hist.init
    simp only [Hist.walk, Hist.setAt, if_true]

/-- A packet whose IP header gives a total length of zero ends a build with assertions;
without them every such packet has fingerprint zero. -/
theorem C70_zero_length (p : List (BitVec 8)) (hp : 12 ≤ p.length) :
    packetCrc true p 0 = .abort ∧ packetCrc false p 0 = .done 0#32 p := by
  refine ⟨rfl, ?_⟩
  rw [packet_eq false p 0 (fun h => by cases h) hp (by omega), Nat.zero_min, List.take_zero]
  rw [show calcCrc [] = 0#32 by decide]

example : packetCrc true (hdr 1 0 0) 0 = .abort := by decide

end Verif.Crc
