import Verif.P2pdModel
/-
C122: what the p2pd plugin does to the packets it carries.
-/
namespace Verif.P2pd

/-! ### Specification -/

/-- Addition of 16-bit numbers with end-around carry (RFC 1071). -/
def ocAdd (x y : Nat) : Nat := if x + y ≥ 65536 then x + y - 65535 else x + y

/-- The one's complement sum of the first `n` 16-bit words in network order. -/
def ocSum (m : List Nat) : Nat → Nat
  | 0 => 0
  | n + 1 => ocAdd (ocSum m n) (256 * m.getD (2 * n) 0 + m.getD (2 * n + 1) 0)

/-- The plain sum of the first `n` words without the one that is the checksum of
an IPv4 header. -/
def otherSum (m : List Nat) : Nat → Nat
  | 0 => 0
  | n + 1 => otherSum m n +
      (if n = 5 then 0 else 256 * m.getD (2 * n) 0 + m.getD (2 * n + 1) 0)

/-- An IPv4 packet at the beginning of a piece of memory: header length and total
length make sense. -/
structure V4 (m : List Nat) : Prop where
  bytes : ∀ x ∈ m, x < 256
  ver : m.getD 0 0 / 16 = 4
  ihl : 5 ≤ m.getD 0 0 % 16
  hdr : 4 * (m.getD 0 0 % 16) ≤ 256 * m.getD 2 0 + m.getD 3 0
  tot : 256 * m.getD 2 0 + m.getD 3 0 ≤ m.length

/-- The total length field. -/
def totLen (m : List Nat) : Nat := 256 * m.getD 2 0 + m.getD 3 0

/-- The packet is UDP, not the rest of a fragmented one, and to this destination
and port. -/
def Udp4 (m : List Nat) (dst : List Nat) (port : Nat) : Prop :=
  m.getD 9 0 = 17 ∧ (256 * m.getD 6 0 + m.getD 7 0) % 8192 = 0 ∧ (m.drop 16).take 4 = dst ∧
  256 * m.getD (4 * (m.getD 0 0 % 16) + 2) 0 + m.getD (4 * (m.getD 0 0 % 16) + 3) 0 = port

/-! ### Helper lemmas -/

private theorem b_lt {m : List Nat} (h : ∀ x ∈ m, x < 256) (i : Nat) : b m i < 256 := by
  unfold b
  rw [List.getD_eq_getElem?_getD]
  cases hx : m[i]? with
  | none => simp
  | some x => exact h x (List.mem_of_getElem? hx)

private theorem b_set_ne (m : List Nat) (i v j : Nat) (h : j ≠ i) : b (m.set i v) j = b m j := by
  unfold b
  simp only [List.getD_eq_getElem?_getD]
  rw [List.getElem?_set_ne (by omega)]

private theorem b_set (m : List Nat) (i v : Nat) (h : i < m.length) : b (m.set i v) i = v := by
  unfold b
  simp only [List.getD_eq_getElem?_getD]
  rw [List.getElem?_set_self h]
  rfl

private theorem put_len (m : List Nat) (i v : Nat) : (put16 m i v).length = m.length := by
  unfold put16; simp

private theorem put_ne (m : List Nat) (i v j : Nat) (h : j ≠ i) (h' : j ≠ i + 1) :
    b (put16 m i v) j = b m j := by
  unfold put16
  rw [b_set_ne _ _ _ _ h', b_set_ne _ _ _ _ h]

private theorem put_hi (m : List Nat) (i v : Nat) (h : i + 1 < m.length) :
    b (put16 m i v) i = v / 256 := by
  unfold put16
  rw [b_set_ne _ _ _ _ (by omega), b_set _ _ _ (by omega)]

private theorem put_lo (m : List Nat) (i v : Nat) (h : i + 1 < m.length) :
    b (put16 m i v) (i + 1) = v % 256 := by
  unfold put16
  rw [b_set _ _ _ (by simpa using h)]

private theorem wordSum_put (m : List Nat) (v n : Nat) (h : 11 < m.length) :
    wordSum (put16 m 10 v) n = otherSum m n + (if 5 < n then v else 0) := by
  induction n with
  | zero => rfl
  | succ n ih =>
    simp only [wordSum, otherSum]
    rw [ih]
    by_cases h5 : n = 5
    · subst h5
      have e : be16 (put16 m 10 v) (2 * 5) = v := by
        unfold be16
        rw [show 2 * 5 = 10 by rfl, put_hi m 10 v (by omega), put_lo m 10 v (by omega)]
        omega
      rw [e]
      simp
    · have e : be16 (put16 m 10 v) (2 * n) = 256 * m.getD (2 * n) 0 + m.getD (2 * n + 1) 0 := by
        unfold be16
        rw [put_ne _ _ _ _ (by omega) (by omega), put_ne _ _ _ _ (by omega) (by omega)]
        rfl
      rw [e, if_neg h5]
      by_cases h6 : 5 < n
      · rw [if_pos h6, if_pos (by omega)]
        omega
      · rw [if_neg h6, if_neg (by omega)]
        rfl

private theorem otherSum_put (m : List Nat) (v n : Nat) : otherSum (put16 m 10 v) n = otherSum m n := by
  induction n with
  | zero => rfl
  | succ n ih =>
    simp only [otherSum]
    rw [ih]
    by_cases h5 : n = 5
    · rw [if_pos h5, if_pos h5]
    · rw [if_neg h5, if_neg h5]
      have e1 := put_ne m 10 v (2 * n) (by omega) (by omega)
      have e2 := put_ne m 10 v (2 * n + 1) (by omega) (by omega)
      unfold b at e1 e2
      rw [e1, e2]

private theorem otherSum_le (m : List Nat) (h : ∀ x ∈ m, x < 256) (n : Nat) :
    otherSum m n ≤ 65535 * n := by
  induction n with
  | zero => simp [otherSum]
  | succ n ih =>
    simp only [otherSum]
    have h1 : m.getD (2 * n) 0 < 256 := b_lt h (2 * n)
    have h2 : m.getD (2 * n + 1) 0 < 256 := b_lt h (2 * n + 1)
    by_cases h5 : n = 5
    · rw [if_pos h5]; omega
    · rw [if_neg h5]; omega

/-- The plain sum and the one's complement sum. -/
private theorem oc_word (m : List Nat) (h : ∀ x ∈ m, x < 256) (n : Nat) :
    ocSum m n ≤ 65535 ∧ ocSum m n % 65535 = wordSum m n % 65535 ∧
      (ocSum m n = 0 → wordSum m n = 0) := by
  induction n with
  | zero => simp [ocSum, wordSum]
  | succ n ih =>
    obtain ⟨i1, i2, i3⟩ := ih
    simp only [ocSum, wordSum, be16]
    have h1 := b_lt h (2 * n)
    have h2 := b_lt h (2 * n + 1)
    change ocAdd (ocSum m n) (256 * b m (2 * n) + b m (2 * n + 1)) ≤ 65535 ∧
      ocAdd (ocSum m n) (256 * b m (2 * n) + b m (2 * n + 1)) % 65535 = _ ∧
      (ocAdd (ocSum m n) (256 * b m (2 * n) + b m (2 * n + 1)) = 0 → _)
    obtain ⟨w, hw⟩ : ∃ w, w = 256 * b m (2 * n) + b m (2 * n + 1) := ⟨_, rfl⟩
    obtain ⟨o, ho⟩ : ∃ o, o = ocSum m n := ⟨_, rfl⟩
    obtain ⟨l, hl⟩ : ∃ l, l = wordSum m n := ⟨_, rfl⟩
    have hw' : w ≤ 65535 := by omega
    rw [← hw, ← ho, ← hl]
    rw [← ho] at i1 i2 i3
    rw [← hl] at i2 i3
    have hmod : (l + w) % 65535 = (o + w) % 65535 := by
      rw [Nat.add_mod, ← i2, ← Nat.add_mod]
    unfold ocAdd
    rw [hmod]
    split
    · omega
    · omega

private theorem put_bytes {m : List Nat} (h : ∀ x ∈ m, x < 256) (i v : Nat) (hv : v < 65536) :
    ∀ x ∈ put16 m i v, x < 256 := by
  intro x hx
  unfold put16 at hx
  rcases List.mem_or_eq_of_mem_set hx with hx | rfl
  · rcases List.mem_or_eq_of_mem_set hx with hx | rfl
    · exact h x hx
    · omega
  · omega

private theorem fold_lt (s : Nat) : fold1 s < 65536 := by
  unfold fold1; omega

private theorem rec_len (m : List Nat) : (recompute m).length = m.length := by
  unfold recompute; rw [put_len, put_len]

private theorem rec_ne (m : List Nat) (j : Nat) (h : j ≠ 10) (h' : j ≠ 11) :
    b (recompute m) j = b m j := by
  unfold recompute
  rw [put_ne _ _ _ _ h (by omega), put_ne _ _ _ _ h (by omega)]

private theorem fold_iff (s : Nat) (h : s ≤ 1966050) :
    (s + fold1 s) % 65535 = 0 ↔ s / 65536 + s % 65536 < 65536 := by
  unfold fold1
  obtain ⟨q, hq⟩ : ∃ q, q = s / 65536 := ⟨_, rfl⟩
  obtain ⟨r, hr⟩ : ∃ r, r = s % 65536 := ⟨_, rfl⟩
  have hs : s = 65536 * q + r := by omega
  have hq' : q ≤ 29 := by omega
  have hr' : r < 65536 := by omega
  rw [← hq, ← hr]
  by_cases hc : q + r < 65536
  · have e2 : (q + r) % 65536 = q + r := by omega
    rw [e2]
    omega
  · have e2 : (q + r) % 65536 = q + r - 65536 := by omega
    rw [e2]
    omega

private theorem hl_rec (m : List Nat) : hl (put16 m 10 0) = hl m := by
  unfold hl
  rw [put_ne _ _ _ _ (by omega) (by omega)]

private theorem first_le (m : List Nat) (k : Nat) (hk : 1 ≤ k) : b m 0 ≤ wordSum m k := by
  induction k with
  | zero => omega
  | succ k ih =>
    simp only [wordSum]
    by_cases hk0 : k = 0
    · subst hk0
      simp only [wordSum, be16, Nat.mul_zero]
      omega
    · have := ih (by omega)
      omega

/-! ### The property -/

/-- The header checksum after the time to live has been decremented: it is right
exactly if the sum of the other words needs only one fold. -/
theorem C122_checksum (m : List Nat) (h : V4 m) :
    ocSum (recompute m) (2 * (m.getD 0 0 % 16)) = 65535 ↔
      otherSum m (2 * (m.getD 0 0 % 16)) / 65536 + otherSum m (2 * (m.getD 0 0 % 16)) % 65536 < 65536 := by
  have hi := h.ihl
  have hh := h.hdr
  have ht := h.tot
  have hv := h.ver
  obtain ⟨n, hn⟩ : ∃ n, n = 2 * (m.getD 0 0 % 16) := ⟨_, rfl⟩
  have hn' : 2 * hl m = n := hn.symm
  rw [← hn]
  have hlen : 11 < m.length := by omega
  have hz : wordSum (put16 m 10 0) n = otherSum m n := by
    rw [wordSum_put m 0 n hlen]
    split <;> rfl
  have hrec : recompute m = put16 (put16 m 10 0) 10 (fold1 (otherSum m n)) := by
    unfold recompute
    rw [hl_rec, hn', hz]
  have hsum : wordSum (recompute m) n = otherSum m n + fold1 (otherSum m n) := by
    rw [hrec, wordSum_put _ _ _ (by rw [put_len]; exact hlen), otherSum_put, if_pos (by omega)]
  have hb : ∀ x ∈ recompute m, x < 256 := by
    rw [hrec]
    exact put_bytes (put_bytes h.bytes 10 0 (by omega)) 10 _ (fold_lt _)
  have hle := otherSum_le m h.bytes n
  have hle' : otherSum m n ≤ 1966050 := by
    have : 65535 * n ≤ 65535 * 30 := Nat.mul_le_mul_left _ (by omega)
    omega
  rw [← fold_iff _ hle']
  obtain ⟨o1, o2, o3⟩ := oc_word (recompute m) hb n
  have hpos : 0 < wordSum (recompute m) n := by
    have := first_le (recompute m) n (by omega)
    rw [rec_ne _ _ (by omega) (by omega)] at this
    unfold b at this
    omega
  rw [hsum] at o2 o3 hpos
  obtain ⟨w, hw⟩ : ∃ w, w = ocSum (recompute m) n := ⟨_, rfl⟩
  obtain ⟨s, hs⟩ : ∃ s, s = otherSum m n + fold1 (otherSum m n) := ⟨_, rfl⟩
  rw [← hw] at o1 o2 o3
  rw [← hs] at o2 o3 hpos
  rw [← hw, ← hs]
  constructor
  · intro hx; omega
  · intro hx
    have : w ≠ 0 := fun hw0 => by have := o3 hw0; omega
    omega

/-- A packet to 239.1.2.3, port 5000, with four bytes of data. -/
def exPkt : List Nat := [0x45, 0, 0, 32, 0, 0, 0, 0, 64, 17, 1, 2, 10, 0, 0, 5, 239, 1, 2, 3,
  19, 136, 19, 136, 0, 12, 0, 0, 1, 2, 3, 4]

/-- The configuration with this one destination and nothing else. -/
def exCfg : Cfg := ⟨false, false, false, [(false, [239, 1, 2, 3], 5000)]⟩

theorem exPkt_v4 : V4 exPkt := ⟨by decide, by decide, by decide, by decide, by decide⟩

example : ocSum (recompute exPkt) 10 = 65535 ∧ otherSum exPkt 10 / 65536 + otherSum exPkt 10 % 65536 < 65536 := by
  decide +kernel

/-- A packet for which it is wrong: the words add up to 0x1ffff.  The receiver drops
such a packet. -/
theorem C122_checksum_negation : ∃ pkt sent : List Nat, V4 pkt ∧ ocSum pkt 10 = 65535 ∧
    captured { exCfg with ttlDec := true } (fun _ => false) [] pkt = .send sent ∧
    ocSum sent 10 ≠ 65535 := by
  refine ⟨[0x45, 0, 0, 32, 0x80, 0xc5, 0, 0, 64, 17, 0xfe, 0xfe, 10, 0, 0, 5, 239, 1, 2, 3,
    19, 136, 19, 136, 0, 12, 0, 0, 1, 2, 3, 4], _, ⟨by decide, by decide, by decide, by decide, by decide⟩,
    ?_, rfl, ?_⟩
  · decide +kernel
  · decide +kernel

/-- What is captured, without the table of recent packets: the UDP packets to the
configured destinations which, if that is configured, may still travel. -/
theorem C122_capture_partial (c : Cfg) (hh : c.hash = false) (seen : List Nat → Bool)
    (stale pkt : List Nat) (h : V4 pkt) (hu : 4 * (pkt.getD 0 0 % 16) + 4 ≤ pkt.length) :
    (∃ sent, captured c seen stale pkt = .send sent) ↔
      (∃ dst port, Udp4 pkt dst port ∧ (false, dst, port) ∈ c.dests) ∧
      (c.ttlDec = true → 2 ≤ pkt.getD 8 0) := by
  have hv : version pkt = 4 := h.ver
  have hchk : check c seen (pkt ++ stale) = .fresh := by
    unfold check; rw [if_pos hh]
  have hu' : ¬ pkt.length < 4 * hl pkt + 4 := by
    show ¬ pkt.length < 4 * (pkt.getD 0 0 % 16) + 4
    omega
  have hin : inList c false ((pkt.drop 16).take 4) (be16 pkt (4 * hl pkt + 2)) = true ↔
      (false, (pkt.drop 16).take 4, be16 pkt (4 * hl pkt + 2)) ∈ c.dests := by
    unfold inList
    rw [List.any_eq_true]
    constructor
    · rintro ⟨⟨x, y, z⟩, h1, h2⟩
      simp only [Bool.and_eq_true, beq_iff_eq] at h2
      rw [h2.1.1, h2.1.2, h2.2] at h1
      exact h1
    · intro hm
      exact ⟨_, hm, by simp⟩
  unfold captured
  rw [if_pos hv]
  constructor
  · rintro ⟨sent, hs⟩
    by_cases h9 : b pkt 9 ≠ 17
    · rw [if_pos h9] at hs; cases hs
    · rw [if_neg h9] at hs
      by_cases h6 : be16 pkt 6 % 8192 ≠ 0
      · rw [if_pos h6] at hs; cases hs
      · rw [if_neg h6, hchk] at hs
        simp only [] at hs
        rw [if_neg hu'] at hs
        by_cases hi : inList c false ((pkt.drop 16).take 4) (be16 pkt (4 * hl pkt + 2)) = false
        · rw [if_pos hi] at hs; cases hs
        · rw [if_neg hi] at hs
          have hi' := hin.1 (by simpa using hi)
          refine ⟨⟨_, _, ⟨Decidable.not_not.1 h9, Decidable.not_not.1 h6, rfl, rfl⟩, hi'⟩, ?_⟩
          intro ht
          unfold travel at hs
          rw [if_neg (by rw [ht]; simp)] at hs
          by_cases h8 : b pkt 8 ≤ 1
          · rw [if_pos h8] at hs; cases hs
          · unfold b at h8; omega
  · rintro ⟨⟨dst, port, ⟨h9, h6, hd, hp⟩, hm⟩, ht⟩
    rw [if_neg (show ¬ b pkt 9 ≠ 17 from fun hx => hx h9),
      if_neg (show ¬ be16 pkt 6 % 8192 ≠ 0 from fun hx => hx h6), hchk]
    simp only []
    have hi : inList c false ((pkt.drop 16).take 4) (be16 pkt (4 * hl pkt + 2)) = true := by
      apply hin.2
      have hp' : be16 pkt (4 * hl pkt + 2) = port := hp
      rw [hd, hp']
      exact hm
    rw [if_neg hu', if_neg (by rw [hi]; simp)]
    unfold travel
    by_cases hc : c.ttlDec = false
    · rw [if_pos hc]; exact ⟨_, rfl⟩
    · rw [if_neg hc]
      have := ht (by simpa using hc)
      rw [if_neg (by unfold b; omega), if_pos rfl]
      exact ⟨_, rfl⟩

example : captured exCfg (fun _ => false) [] exPkt = .send exPkt ∧
    captured { exCfg with dests := [(false, [239, 1, 2, 3], 5001)] } (fun _ => false) [] exPkt = .drop := by
  decide +kernel

/-- What is put into the message: without decrement the packet itself, with it the
packet with a time to live that is one less (and not 0) and another checksum. -/
theorem C122_sent (c : Cfg) (seen : List Nat → Bool) (stale pkt sent : List Nat) (h : V4 pkt)
    (hc : captured c seen stale pkt = .send sent) :
    sent.length = pkt.length ∧
    (c.ttlDec = false → sent = pkt) ∧
    (c.ttlDec = true → sent.getD 8 0 + 1 = pkt.getD 8 0 ∧ 1 ≤ sent.getD 8 0 ∧
      sent = recompute (pkt.set 8 (pkt.getD 8 0 - 1))) ∧
    (∀ j, j ≠ 8 → j ≠ 10 → j ≠ 11 → sent.getD j 0 = pkt.getD j 0) ∧
    4 * (pkt.getD 0 0 % 16) + 4 ≤ pkt.length ∧
    ∃ dst port, Udp4 pkt dst port ∧ (false, dst, port) ∈ c.dests := by
  have hv : version pkt = 4 := h.ver
  have hh := h.hdr
  have hi5 := h.ihl
  have htt := h.tot
  unfold captured at hc
  rw [if_pos hv] at hc
  by_cases h9 : b pkt 9 ≠ 17
  · rw [if_pos h9] at hc; cases hc
  · rw [if_neg h9] at hc
    by_cases h6 : be16 pkt 6 % 8192 ≠ 0
    · rw [if_pos h6] at hc; cases hc
    · rw [if_neg h6] at hc
      cases hk : check c seen (pkt ++ stale) with
      | abort => rw [hk] at hc; cases hc
      | recent => rw [hk] at hc; cases hc
      | fresh =>
        rw [hk] at hc
        simp only [] at hc
        by_cases hu : pkt.length < 4 * hl pkt + 4
        · rw [if_pos hu] at hc; cases hc
        · rw [if_neg hu] at hc
          by_cases hi : inList c false ((pkt.drop 16).take 4) (be16 pkt (4 * hl pkt + 2)) = false
          · rw [if_pos hi] at hc; cases hc
          · rw [if_neg hi] at hc
            have hi' : inList c false ((pkt.drop 16).take 4) (be16 pkt (4 * hl pkt + 2)) = true := by
              simpa using hi
            have hdst : ∃ dst port, Udp4 pkt dst port ∧ (false, dst, port) ∈ c.dests := by
              unfold inList at hi'
              rw [List.any_eq_true] at hi'
              obtain ⟨⟨x, y, z⟩, h1, h2⟩ := hi'
              simp only [Bool.and_eq_true, beq_iff_eq] at h2
              rw [h2.1.1, h2.1.2, h2.2] at h1
              exact ⟨_, _, ⟨Decidable.not_not.1 h9, Decidable.not_not.1 h6, rfl, rfl⟩, h1⟩
            have hu' : 4 * (pkt.getD 0 0 % 16) + 4 ≤ pkt.length := by
              have : ¬ pkt.length < 4 * (pkt.getD 0 0 % 16) + 4 := hu
              omega
            unfold travel at hc
            by_cases ht : c.ttlDec = false
            · rw [if_pos ht] at hc
              cases hc
              exact ⟨rfl, fun _ => rfl, fun hx => (by rw [ht] at hx; cases hx), fun _ _ _ _ => rfl, hu', hdst⟩
            · rw [if_neg ht] at hc
              by_cases h8 : b pkt 8 ≤ 1
              · rw [if_pos h8] at hc; cases hc
              · rw [if_neg h8, if_pos rfl] at hc
                cases hc
                have e8 : b (recompute (pkt.set 8 (b pkt 8 - 1))) 8 = b pkt 8 - 1 := by
                  rw [rec_ne _ _ (by omega) (by omega), b_set _ _ _ (by omega)]
                refine ⟨by rw [rec_len]; simp, fun hx => absurd hx ht, fun _ => ⟨?_, ?_, rfl⟩, ?_, hu', hdst⟩
                · change b (recompute (pkt.set 8 (b pkt 8 - 1))) 8 + 1 = b pkt 8
                  rw [e8]; omega
                · change 1 ≤ b (recompute (pkt.set 8 (b pkt 8 - 1))) 8
                  rw [e8]; omega
                · intro j h1 h2 h3
                  change b (recompute (pkt.set 8 (b pkt 8 - 1))) j = b pkt j
                  rw [rec_ne _ _ h2 h3, b_set_ne _ _ _ _ h1]

example : captured { exCfg with ttlDec := true } (fun _ => false) [] exPkt =
    .send (recompute (exPkt.set 8 63)) ∧ (recompute (exPkt.set 8 63)).getD 8 0 = 63 := by decide +kernel

private theorem getD_append (s t : List Nat) (j : Nat) (h : j < s.length) :
    (s ++ t).getD j 0 = s.getD j 0 := by
  simp only [List.getD_eq_getElem?_getD]
  rw [List.getElem?_append_left h]

private theorem take_drop_ext (s t : List Nat) (i n : Nat) (hl : i + n ≤ s.length) (hl' : i + n ≤ t.length)
    (h : ∀ j, i ≤ j → j < i + n → s.getD j 0 = t.getD j 0) :
    (s.drop i).take n = (t.drop i).take n := by
  apply List.ext_getElem?
  intro k
  by_cases hk : k < n
  · have := h (i + k) (by omega) (by omega)
    simp only [List.getD_eq_getElem?_getD] at this
    rw [List.getElem?_take, List.getElem?_take, if_pos hk, if_pos hk, List.getElem?_drop, List.getElem?_drop]
    rw [List.getElem?_eq_getElem (by omega), List.getElem?_eq_getElem (by omega)] at this ⊢
    simpa using this
  · rw [List.getElem?_take, List.getElem?_take, if_neg hk, if_neg hk]

/-- What a node does with a packet as it was sent: into every LAN, unchanged. -/
private theorem deliver_v4 (c : Cfg) (hv6 : c.v6 = false) (hh : c.hash = false) (seen : List Nat → Bool)
    (nif : Nat) (pkt sent rest : List Nat) (h : V4 pkt) (hl : sent.length = pkt.length)
    (hs : ∀ j, j ≠ 8 → j ≠ 10 → j ≠ 11 → sent.getD j 0 = pkt.getD j 0)
    (hu : 4 * (pkt.getD 0 0 % 16) + 4 ≤ pkt.length)
    (hd : ∃ dst port, Udp4 pkt dst port ∧ (false, dst, port) ∈ c.dests) :
    deliver c seen nif (sent ++ rest) =
      .done (List.replicate nif (mac c pkt, sent.take (totLen pkt))) := by
  have hi5 := h.ihl
  have hhd := h.hdr
  have htt := h.tot
  have hver := h.ver
  have hg : ∀ j, j < pkt.length → j ≠ 8 → j ≠ 10 → j ≠ 11 → b (sent ++ rest) j = b pkt j := by
    intro j hj h1 h2 h3
    show (sent ++ rest).getD j 0 = pkt.getD j 0
    rw [getD_append _ _ _ (by omega), hs j h1 h2 h3]
  have hchk : check c seen (sent ++ rest) = .fresh := by
    unfold check; rw [if_pos hh]
  have e0 := hg 0 (by omega) (by omega) (by omega) (by omega)
  have ehl : Verif.P2pd.hl (sent ++ rest) = pkt.getD 0 0 % 16 := by
    unfold Verif.P2pd.hl; rw [e0]; rfl
  have est : strip (sent ++ rest) = totLen pkt := by
    unfold strip
    rw [if_pos (by unfold version; rw [e0]; exact hver)]
    unfold be16
    rw [hg 2 (by omega) (by omega) (by omega) (by omega), hg 3 (by omega) (by omega) (by omega) (by omega)]
    rfl
  have hlen : (sent ++ rest).length = pkt.length + rest.length := by simp [hl]
  obtain ⟨dst, port, ⟨u9, u6, ud, up⟩, hm⟩ := hd
  have hw : wanted c (sent ++ rest) = true := by
    unfold wanted
    rw [hv6]
    simp only [Bool.false_eq_true, if_false]
    have e9 : b (sent ++ rest) 9 = 17 := by
      rw [hg 9 (by omega) (by omega) (by omega) (by omega)]; exact u9
    have e6 : be16 (sent ++ rest) 6 % 8192 = 0 := by
      unfold be16
      rw [hg 6 (by omega) (by omega) (by omega) (by omega), hg 7 (by omega) (by omega) (by omega) (by omega)]
      exact u6
    have ep : be16 (sent ++ rest) (4 * Verif.P2pd.hl (sent ++ rest) + 2) = port := by
      unfold be16
      rw [ehl, hg _ (by omega) (by omega) (by omega) (by omega), hg _ (by omega) (by omega) (by omega) (by omega)]
      exact up
    have ed : ((sent ++ rest).drop 16).take 4 = dst := by
      rw [← ud]
      apply take_drop_ext _ _ 16 4 (by omega) (by omega)
      intro j h1 h2
      exact hg j (by omega) (by omega) (by omega) (by omega)
    rw [e9, e6, ep, ed]
    simp only [beq_self_eq_true, Bool.true_and]
    unfold inList
    rw [List.any_eq_true]
    exact ⟨_, hm, by simp⟩
  have emac : mac c (sent ++ rest) = mac c pkt := by
    unfold mac
    rw [hv6]
    simp only [Bool.false_eq_true, if_false]
    rw [hg 16 (by omega) (by omega) (by omega) (by omega), hg 17 (by omega) (by omega) (by omega) (by omega),
      hg 18 (by omega) (by omega) (by omega) (by omega), hg 19 (by omega) (by omega) (by omega) (by omega)]
  have htot : totLen pkt ≤ pkt.length := htt
  have htot' : 20 ≤ totLen pkt := by
    have : 4 * (pkt.getD 0 0 % 16) ≤ totLen pkt := hhd
    omega
  unfold deliver
  rw [hchk]
  simp only []
  rw [est]
  by_cases hn : nif = 0
  · rw [if_pos (Or.inl hn), hn]; rfl
  · rw [if_neg (by omega), hv6]
    simp only [Bool.false_eq_true, if_false]
    rw [ehl, if_neg (by omega), if_neg (by rw [hw]; simp), if_neg (by omega), emac]
    congr 3
    rw [List.take_append_of_le_length (by omega)]

/-- From LAN to LAN, without the table of recent packets: another node that has not
seen the message sends the packet as it was put into the message to every LAN, with
the link-layer address that belongs to its destination, and passes the message on. -/
theorem C122_tunnel_partial (c : Cfg) (hv6 : c.v6 = false) (hh : c.hash = false)
    (seen seen' : List Nat → Bool) (stale : List Nat) (ptype : Nat) (frame sent : List Nat)
    (h : V4 frame) (hc : doP2pd c seen stale ptype frame = .done (.send sent))
    (own own' : List Nat) (hown : own.length = 4) (hne : own ≠ own') (vtime ttl seq : Nat)
    (rest msg : List Nat) (hmsg : gen false own vtime ttl seq sent = msg.map some) (nif : Nat) :
    parser c own' false seen' nif (msg ++ rest) =
      (true, .done (List.replicate nif (mac c frame, sent.take (totLen frame)))) := by
  have hcap : captured c seen stale frame = .send sent := by
    unfold doP2pd at hc
    by_cases h1 : 2040 < frame.length
    · rw [if_pos h1] at hc; cases hc
    · rw [if_neg h1] at hc
      by_cases h2 : frame.length < 20
      · rw [if_pos h2] at hc; cases hc
      · rw [if_neg h2] at hc
        by_cases h3 : ptype = 4 ∨ ptype = 2 ∨ ptype = 1
        · rw [if_pos h3] at hc
          injection hc
        · rw [if_neg h3] at hc; cases hc
  obtain ⟨s1, _, _, s4, s5, s6⟩ := C122_sent c seen stale frame sent h hcap
  obtain ⟨x0, x1, x2, x3, rfl⟩ : ∃ x0 x1 x2 x3, own = [x0, x1, x2, x3] := by
    match own, hown with
    | [x0, x1, x2, x3], _ => exact ⟨x0, x1, x2, x3, rfl⟩
  have hm : msg = [132, vtime, (aligned sent.length + 12) / 256 % 256, (aligned sent.length + 12) % 256,
      x0, x1, x2, x3, msgTtl ttl, 0, seq / 256 % 256, seq % 256] ++
      (sent ++ List.replicate (aligned sent.length - sent.length) 0) := by
    have : (msg.map some : List (Option Nat)) = ([132, vtime, (aligned sent.length + 12) / 256 % 256,
        (aligned sent.length + 12) % 256, x0, x1, x2, x3, msgTtl ttl, 0, seq / 256 % 256, seq % 256] ++
        (sent ++ List.replicate (aligned sent.length - sent.length) 0)).map some := by
      rw [← hmsg]
      unfold gen
      simp
    exact (List.map_inj_right (fun _ _ hxy => Option.some.inj hxy)).1 this
  unfold parser
  rw [hv6]
  simp only [Bool.false_eq_true, if_false, hdrLen]
  have ho : ((msg ++ rest).drop 4).take 4 = [x0, x1, x2, x3] := by rw [hm]; rfl
  rw [ho, if_neg hne]
  have hdr : (msg ++ rest).drop 12 =
      sent ++ (List.replicate (aligned sent.length - sent.length) 0 ++ rest) := by
    rw [hm]
    simp
  rw [hdr, deliver_v4 c hv6 hh seen' nif frame sent _ h s1 s4 s5 s6]

/-- The message of a node and what another makes of it. -/
example : doP2pd exCfg (fun _ => false) [] 2 exPkt = .done (.send exPkt) ∧
    parser exCfg [10, 0, 0, 2] false (fun _ => false) 2
      ([132, 0x8a, 0, 44, 10, 0, 0, 1, 255, 0, 0, 7] ++ exPkt) =
      (true, .done [([1, 0, 0x5e, 1, 2, 3], exPkt), ([1, 0, 0x5e, 1, 2, 3], exPkt)]) := by
  decide +kernel

/-- The message that is built for an IPv4 packet is wholly written, and its size
field tells its length. -/
theorem C122_gen_partial (own : List Nat) (hown : own.length = 4) (vtime ttl seq : Nat)
    (pkt : List Nat) (hl : pkt.length ≤ 65520) :
    ∃ msg : List Nat, gen false own vtime ttl seq pkt = msg.map some ∧
      256 * msg.getD 2 0 + msg.getD 3 0 = msg.length ∧ msg.length % 4 = 0 ∧
      (msg.drop 12).take pkt.length = pkt ∧ msg.length < pkt.length + 16 ∧
      msg.getD 8 0 = msgTtl ttl := by
  obtain ⟨x0, x1, x2, x3, rfl⟩ : ∃ x0 x1 x2 x3, own = [x0, x1, x2, x3] := by
    match own, hown with
    | [x0, x1, x2, x3], _ => exact ⟨x0, x1, x2, x3, rfl⟩
  have ha : pkt.length ≤ aligned pkt.length ∧ aligned pkt.length % 4 = 0 ∧
      aligned pkt.length < pkt.length + 4 := by
    unfold aligned
    split
    · omega
    · omega
  refine ⟨[132, vtime, (aligned pkt.length + 12) / 256 % 256, (aligned pkt.length + 12) % 256,
      x0, x1, x2, x3, msgTtl ttl, 0, seq / 256 % 256, seq % 256] ++
      (pkt ++ List.replicate (aligned pkt.length - pkt.length) 0), ?_, ?_, ?_, ?_, ?_, rfl⟩
  · unfold gen; simp
  · simp
    omega
  · simp
    omega
  · simp
  · simp
    omega

example : (gen false [10, 0, 0, 1] 0 0 0 (List.replicate 33 9)).length = 48 := by decide +kernel

/-- The configured time to live of the messages is cut to a byte: 256 is 0. -/
theorem C122_ttl_negation : ∃ n : Nat, 0 < n ∧ msgTtl n = 0 := ⟨256, by decide, by decide⟩

/-- Nothing gets into a LAN but UDP packets to configured destinations. -/
theorem C122_wanted (c : Cfg) (hv6 : c.v6 = false) (seen : List Nat → Bool) (nif : Nat) (m : List Nat)
    (out : List (List Nat × List Nat)) (hd : deliver c seen nif m = .done out) (x : List Nat × List Nat)
    (hx : x ∈ out) :
    (∃ dst port, Udp4 m dst port ∧ (false, dst, port) ∈ c.dests) ∧ x.2 = m.take x.2.length := by
  unfold deliver at hd
  cases hk : check c seen m with
  | abort => rw [hk] at hd; cases hd
  | recent => rw [hk] at hd; cases hd; cases hx
  | fresh =>
    rw [hk] at hd
    simp only [] at hd
    by_cases h1 : nif = 0 ∨ strip m = 0
    · rw [if_pos h1] at hd; cases hd; cases hx
    · rw [if_neg h1] at hd
      by_cases h2 : m.length < 20 ∨ m.length < (if c.v6 then 44 else 4 * hl m + 4)
      · rw [if_pos h2] at hd; cases hd
      · rw [if_neg h2] at hd
        by_cases h3 : wanted c m = false
        · rw [if_pos h3] at hd; cases hd; cases hx
        · rw [if_neg h3] at hd
          by_cases h4 : m.length < strip m
          · rw [if_pos h4] at hd; cases hd
          · rw [if_neg h4] at hd
            cases hd
            have hxe := List.eq_of_mem_replicate hx
            refine ⟨?_, ?_⟩
            · have hw : wanted c m = true := by simpa using h3
              unfold wanted at hw
              rw [hv6] at hw
              simp only [Bool.false_eq_true, if_false, Bool.and_eq_true, beq_iff_eq] at hw
              have hi := hw.2
              unfold inList at hi
              rw [List.any_eq_true] at hi
              obtain ⟨⟨y, z, w⟩, g1, g2⟩ := hi
              simp only [Bool.and_eq_true, beq_iff_eq] at g2
              rw [g2.1.1, g2.1.2, g2.2] at g1
              exact ⟨_, _, ⟨hw.1.1, hw.1.2, rfl, rfl⟩, g1⟩
            · rw [hxe]
              simp only [List.length_take]
              rw [List.take_eq_take_iff]
              omega

example : deliver exCfg (fun _ => false) 1 exPkt = .done [([1, 0, 0x5e, 1, 2, 3], exPkt)] ∧
    deliver exCfg (fun _ => false) 1 (exPkt.set 22 20) = .done [] := by decide +kernel

/-- The link-layer address of an IPv4 multicast packet is the one of RFC 1112: the
low 23 bits of the destination behind 01:00:5e; any other packet is broadcast. -/
theorem C122_mac (c : Cfg) (hv6 : c.v6 = false) (m : List Nat) (hb : ∀ x ∈ m, x < 256) :
    (224 ≤ m.getD 16 0 ∧ m.getD 16 0 ≤ 239 →
      (mac c m).foldl (fun a x => 256 * a + x) 0 = 0x01005E000000 +
        (16777216 * m.getD 16 0 + 65536 * m.getD 17 0 + 256 * m.getD 18 0 + m.getD 19 0) % 8388608) ∧
    (¬ (224 ≤ m.getD 16 0 ∧ m.getD 16 0 ≤ 239) → mac c m = List.replicate 6 255) := by
  have h17 : m.getD 17 0 < 256 := b_lt hb 17
  have h18 : m.getD 18 0 < 256 := b_lt hb 18
  have h19 : m.getD 19 0 < 256 := b_lt hb 19
  unfold mac
  rw [hv6]
  simp only [Bool.false_eq_true, if_false]
  constructor
  · intro hm
    rw [if_pos (show b m 16 / 16 = 14 by unfold b; omega)]
    simp only [List.foldl_cons, List.foldl_nil, b]
    omega
  · intro hm
    rw [if_neg (show ¬ b m 16 / 16 = 14 by unfold b; omega)]
    rfl

example : mac exCfg exPkt = [0x01, 0x00, 0x5E, 1, 2, 3] := by decide +kernel

/-- An IPv6 multicast packet is sent to the link-layer address 0, for
`IsMulticastv6` has not been written. -/
theorem C122_mac_negation (c : Cfg) (hv6 : c.v6 = true) (m : List Nat) :
    mac c m = List.replicate 6 0 := by
  unfold mac
  rw [hv6]
  rfl

/-- One turn of a packet: a node takes it from its LAN, and another, on the same
LAN, sends it there again. -/
def Turn (c : Cfg) (own own' : List Nat) (pkt out : List Nat) : Prop :=
  ∃ (sent msg : List Nat) (vtime ttl seq : Nat) (a : List Nat),
    doP2pd c (fun _ => false) [] 2 pkt = .done (.send sent) ∧
    gen c.v6 own vtime ttl seq sent = msg.map some ∧
    parser c own' false (fun _ => false) 1 msg = (true, .done [(a, out)])

/-- With the default configuration (no decrement, no table of recent packets) two
nodes on the same LAN send every packet round and round: it comes back unchanged,
for ever. -/
theorem C122_loop_negation (c : Cfg) (hv6 : c.v6 = false) (hh : c.hash = false) (ht : c.ttlDec = false)
    (pkt : List Nat) (h : V4 pkt) (hx : totLen pkt = pkt.length) (hl : pkt.length ≤ 2040)
    (hu : 4 * (pkt.getD 0 0 % 16) + 4 ≤ pkt.length)
    (hd : ∃ dst port, Udp4 pkt dst port ∧ (false, dst, port) ∈ c.dests)
    (own own' : List Nat) (hown : own.length = 4) (hne : own ≠ own') :
    Turn c own own' pkt pkt := by
  obtain ⟨sent, hs⟩ := (C122_capture_partial c hh (fun _ => false) [] pkt h hu).2
    ⟨hd, fun hx => by rw [ht] at hx; cases hx⟩
  have h20 : 20 ≤ pkt.length := by
    have := h.ihl
    have := h.hdr
    have := h.tot
    omega
  have hdo : doP2pd c (fun _ => false) [] 2 pkt = .done (.send sent) := by
    unfold doP2pd
    rw [if_neg (by omega), if_neg (by omega), if_pos (by omega), hs]
  have hsp : sent = pkt := (C122_sent c _ _ pkt sent h hs).2.1 ht
  obtain ⟨msg, hm, _⟩ := C122_gen_partial own hown 0 0 0 sent (by rw [hsp]; omega)
  have hp := C122_tunnel_partial c hv6 hh (fun _ => false) (fun _ => false) [] 2 pkt sent h hdo own own'
    hown hne 0 0 0 [] msg hm 1
  rw [List.append_nil] at hp
  refine ⟨sent, msg, 0, 0, 0, mac c pkt, hdo, by rw [hv6]; exact hm, ?_⟩
  rw [hp, hsp, hx]
  simp

example : V4 exPkt ∧ totLen exPkt = exPkt.length ∧ exPkt.length ≤ 2040 ∧
    exCfg.hash = false ∧ exCfg.ttlDec = false ∧
    ∃ dst port, Udp4 exPkt dst port ∧ (false, dst, port) ∈ exCfg.dests :=
  ⟨exPkt_v4, by decide, by decide, rfl, rfl, [239, 1, 2, 3], 5000,
    ⟨by decide, by decide, by decide, by decide⟩, by decide⟩

/-- Several turns, by any of the nodes. -/
inductive Turns (c : Cfg) : Nat → List Nat → List Nat → Prop where
  | nil (pkt : List Nat) : Turns c 0 pkt pkt
  | cons {n : Nat} {own own' pkt mid out : List Nat} (ho : own.length = 4) (hne : own ≠ own')
      (ht : Turn c own own' pkt mid) (hs : Turns c n mid out) : Turns c (n + 1) pkt out

private theorem turn_ttl (c : Cfg) (hv6 : c.v6 = false) (hh : c.hash = false) (ht : c.ttlDec = true)
    (own own' pkt out : List Nat) (hown : own.length = 4) (hne : own ≠ own') (h : V4 pkt)
    (hT : Turn c own own' pkt out) : V4 out ∧ out.getD 8 0 + 1 = pkt.getD 8 0 ∧ 1 ≤ out.getD 8 0 := by
  obtain ⟨sent, msg, vtime, ttl, seq, a, h1, h2, h3⟩ := hT
  rw [hv6] at h2
  have hp := C122_tunnel_partial c hv6 hh (fun _ => false) (fun _ => false) [] 2 pkt sent h h1 own own'
    hown hne vtime ttl seq [] msg h2 1
  rw [List.append_nil, h3] at hp
  have hout : out = sent.take (totLen pkt) := by
    have := congrArg (fun r : Bool × Del => match r.2 with | .done [(_, o)] => o | _ => []) hp
    simpa using this
  have hcap : captured c (fun _ => false) [] pkt = .send sent := by
    unfold doP2pd at h1
    by_cases g1 : 2040 < pkt.length
    · rw [if_pos g1] at h1; cases h1
    · rw [if_neg g1] at h1
      by_cases g2 : pkt.length < 20
      · rw [if_pos g2] at h1; cases h1
      · rw [if_neg g2, if_pos (by omega)] at h1
        injection h1
  obtain ⟨s1, _, s3, s4, s5, _⟩ := C122_sent c _ _ pkt sent h hcap
  obtain ⟨t1, t2, t3⟩ := s3 ht
  have hi5 := h.ihl
  have hhd := h.hdr
  have htt := h.tot
  have hge : 20 ≤ totLen pkt := by unfold totLen; omega
  have hle : totLen pkt ≤ pkt.length := htt
  have hg : ∀ j, j < totLen pkt → out.getD j 0 = sent.getD j 0 := by
    intro j hj
    rw [hout]
    simp only [List.getD_eq_getElem?_getD]
    rw [List.getElem?_take, if_pos hj]
  have g0 : out.getD 0 0 = pkt.getD 0 0 := by rw [hg 0 (by omega), s4 0 (by omega) (by omega) (by omega)]
  have g2 : out.getD 2 0 = pkt.getD 2 0 := by rw [hg 2 (by omega), s4 2 (by omega) (by omega) (by omega)]
  have g3 : out.getD 3 0 = pkt.getD 3 0 := by rw [hg 3 (by omega), s4 3 (by omega) (by omega) (by omega)]
  have hol : out.length = totLen pkt := by
    rw [hout, List.length_take, s1]
    omega
  have hsb : ∀ x ∈ sent, x < 256 := by
    rw [t3]
    unfold recompute
    apply put_bytes _ 10 _ (fold_lt _)
    apply put_bytes _ 10 0 (by omega)
    intro x hx
    rcases List.mem_or_eq_of_mem_set hx with hx | rfl
    · exact h.bytes x hx
    · have : b pkt 8 < 256 := b_lt h.bytes 8
      unfold b at this
      omega
  refine ⟨⟨?_, by rw [g0]; exact h.ver, by rw [g0]; exact h.ihl, by rw [g0, g2, g3]; exact hhd, ?_⟩, ?_, ?_⟩
  · intro x hx
    rw [hout] at hx
    exact hsb x (List.mem_of_mem_take hx)
  · rw [g2, g3, hol]; exact Nat.le_refl _
  · rw [hg 8 (by omega)]; exact t1
  · rw [hg 8 (by omega)]; exact t2

/-- With the decrement the number of turns is bounded by the time to live. -/
theorem C122_turns_partial (c : Cfg) (hv6 : c.v6 = false) (hh : c.hash = false) (ht : c.ttlDec = true)
    (n : Nat) (pkt out : List Nat) (h : V4 pkt) (hT : Turns c n pkt out) :
    n = 0 ∨ (n + out.getD 8 0 = pkt.getD 8 0 ∧ n ≤ 254) := by
  have main : n + out.getD 8 0 = pkt.getD 8 0 ∧ (n = 0 ∨ 1 ≤ out.getD 8 0) := by
    induction hT with
    | nil pkt => exact ⟨by omega, Or.inl rfl⟩
    | cons ho hne hT hs ih =>
      obtain ⟨g1, g2, g3⟩ := turn_ttl c hv6 hh ht _ _ _ _ ho hne h hT
      obtain ⟨i1, i2⟩ := ih g1
      refine ⟨by omega, Or.inr ?_⟩
      rcases i2 with rfl | i2
      · omega
      · exact i2
  have : b pkt 8 < 256 := b_lt h.bytes 8
  unfold b at this
  omega

/-- One turn with the decrement. -/
example : Turns { exCfg with ttlDec := true } 1 exPkt (recompute (exPkt.set 8 63)) :=
  .cons (own := [10, 0, 0, 1]) (own' := [10, 0, 0, 2]) rfl (by decide)
    ⟨recompute (exPkt.set 8 63),
      [132, 0x8a, 0, 44, 10, 0, 0, 1, 255, 0, 0, 7] ++ recompute (exPkt.set 8 63), 0x8a, 0, 7,
      [1, 0, 0x5e, 1, 2, 3], by decide +kernel, by decide +kernel, by decide +kernel⟩ (.nil _)

/-- The table of recent packets is asked with the wrong bytes.  Two copies of a
packet that differ in the time to live (and in the checksum that goes with it) count
as different packets, though they are to count as one; two packets to different
groups and with different contents count as one if the checksum is small; and bytes
that were in the buffer before decide as well. -/
theorem C122_recent_negation :
    (∃ p q : List Nat, V4 p ∧ V4 q ∧ ocSum p 10 = 65535 ∧ ocSum q 10 = 65535 ∧
      (∀ j, j ≠ 8 → j ≠ 10 → j ≠ 11 → p.getD j 0 = q.getD j 0) ∧ area p ≠ area q) ∧
    (∃ p q : List Nat, V4 p ∧ V4 q ∧ ocSum p 10 = 65535 ∧ ocSum q 10 = 65535 ∧
      (p.drop 16).take 4 ≠ (q.drop 16).take 4 ∧ p.drop 28 ≠ q.drop 28 ∧ area p = area q) ∧
    (∃ p s t : List Nat, V4 p ∧ ocSum p 10 = 65535 ∧ area (p ++ s) ≠ area (p ++ t)) := by
  refine ⟨⟨recompute exPkt, recompute (exPkt.set 8 63), ?_, ?_, ?_, ?_, ?_, ?_⟩,
    ⟨[0x45, 0, 0, 32, 0x7f, 0xc2, 0, 0, 64, 17, 0, 2, 10, 0, 0, 5, 239, 1, 2, 3,
      19, 136, 19, 136, 0, 12, 0, 0, 1, 2, 3, 4],
     [0x45, 0, 0, 32, 0x7f, 0xc1, 0, 0, 64, 17, 0, 2, 10, 0, 0, 5, 239, 2, 2, 3,
      19, 136, 19, 136, 0, 12, 0, 0, 9, 9, 9, 9], ?_, ?_, ?_, ?_, ?_, ?_, ?_⟩,
    ⟨recompute exPkt, [1], [2], ?_, ?_, ?_⟩⟩
  · exact ⟨by decide +kernel, by decide +kernel, by decide +kernel, by decide +kernel, by decide +kernel⟩
  · exact ⟨by decide +kernel, by decide +kernel, by decide +kernel, by decide +kernel, by decide +kernel⟩
  · decide +kernel
  · decide +kernel
  · intro j h1 h2 h3
    by_cases hj : j < 32
    · have : ∀ j : Fin 32, j.1 ≠ 8 → j.1 ≠ 10 → j.1 ≠ 11 →
        (recompute exPkt).getD j.1 0 = (recompute (exPkt.set 8 63)).getD j.1 0 := by decide +kernel
      exact this ⟨j, hj⟩ h1 h2 h3
    · simp only [List.getD_eq_getElem?_getD]
      rw [List.getElem?_eq_none (by rw [rec_len]; simp [exPkt]; omega),
        List.getElem?_eq_none (by rw [rec_len]; simp [exPkt]; omega)]
  · decide +kernel
  · exact ⟨by decide +kernel, by decide +kernel, by decide +kernel, by decide +kernel, by decide +kernel⟩
  · exact ⟨by decide +kernel, by decide +kernel, by decide +kernel, by decide +kernel, by decide +kernel⟩
  · decide +kernel
  · decide +kernel
  · decide +kernel
  · decide +kernel
  · decide +kernel
  · exact ⟨by decide +kernel, by decide +kernel, by decide +kernel, by decide +kernel, by decide +kernel⟩
  · decide +kernel
  · decide +kernel

/-- With the table every IPv6 multicast UDP packet from a link-local address
(fe80:0:…) ends the daemon, when it is captured and, unless it is a message of the
node itself or a duplicate, when it is received in a message. -/
theorem C122_abort_negation (c : Cfg) (hh : c.hash = true) (seen : List Nat → Bool)
    (stale pkt : List Nat) (hv : pkt.getD 0 0 = 0x60) (hlen : 40 ≤ pkt.length)
    (hm : pkt.getD 24 0 = 255) (hu : pkt.getD 6 0 = 17) (h10 : pkt.getD 10 0 = 0) (h11 : pkt.getD 11 0 = 0) :
    captured c seen stale pkt = .abort ∧ ∀ nif, deliver c seen nif (pkt ++ stale) = .abort := by
  have hb : be16 (pkt ++ stale) 10 = 0 := by
    unfold be16 b
    rw [getD_append _ _ _ (by omega), getD_append _ _ _ (by omega), h10, h11]
  have hk : check c seen (pkt ++ stale) = .abort := by
    unfold check
    rw [if_neg (by rw [hh]; simp), if_pos hb]
  have h4 : ¬ version pkt = 4 := by unfold version b; rw [hv]; omega
  have h6 : version pkt = 6 := by unfold version b; rw [hv]
  constructor
  · unfold captured
    rw [if_neg h4, if_pos h6, if_neg (by omega), if_neg (by unfold b; omega), if_neg (by unfold b; omega), hk]
  · intro nif
    unfold deliver
    rw [hk]

example : ([0x60, 0, 0, 0, 0, 8, 17, 1, 0xfe, 0x80, 0, 0, 0, 0, 0, 0, 0, 0, 0, 0, 0, 0, 0, 1,
    0xff, 0x02, 0, 0, 0, 0, 0, 0, 0, 0, 0, 0, 0, 0, 0, 0xfb] : List Nat).length = 40 := by decide

/-- Of the message for an IPv6 packet the last 84 bytes are whatever was on the
stack, and are sent. -/
theorem C122_stack_negation (own : List Nat) (vtime ttl seq : Nat) (pkt : List Nat) :
    ∃ init : List Nat, gen true own vtime ttl seq pkt = init.map some ++ List.replicate 84 none :=
  ⟨_, rfl⟩

/-- The length that counts is the one in the carried packet: bytes that follow the
message in memory are sent into the LAN, and if the memory ends before, the daemon
reads behind it. -/
theorem C122_length_negation (secret : List Nat) (hlen : secret.length = 80) :
    ∃ (body out a : List Nat), body.length = 24 ∧
      deliver exCfg (fun _ => false) 1 (body ++ secret) = .done [(a, out)] ∧ out.drop 24 = secret ∧
      deliver exCfg (fun _ => false) 1 body = .beyond := by
  refine ⟨[0x45, 0, 0, 104, 0, 0, 0, 0, 64, 17, 1, 2, 10, 0, 0, 5, 239, 1, 2, 3, 19, 136, 19, 136],
    [0x45, 0, 0, 104, 0, 0, 0, 0, 64, 17, 1, 2, 10, 0, 0, 5, 239, 1, 2, 3, 19, 136, 19, 136] ++ secret,
    [1, 0, 0x5e, 1, 2, 3], rfl, ?_, by simp, by decide +kernel⟩
  have e : ([0x45, 0, 0, 104, 0, 0, 0, 0, 64, 17, 1, 2, 10, 0, 0, 5, 239, 1, 2, 3, 19, 136, 19, 136] ++
      secret).length = 104 := by simp [hlen]
  obtain ⟨m, hm⟩ : ∃ m, m = ([0x45, 0, 0, 104, 0, 0, 0, 0, 64, 17, 1, 2, 10, 0, 0, 5, 239, 1, 2, 3,
    19, 136, 19, 136] ++ secret : List Nat) := ⟨_, rfl⟩
  rw [← hm] at e ⊢
  have hk : check exCfg (fun _ => false) m = .fresh := rfl
  have hs : strip m = 104 := by rw [hm]; simp [strip, version, be16, b]
  have hw : wanted exCfg m = true := by rw [hm]; simp [wanted, exCfg, inList, be16, b, hl]
  have hma : mac exCfg m = [1, 0, 0x5e, 1, 2, 3] := by rw [hm]; simp [mac, exCfg, b]
  have hhl : hl m = 5 := by rw [hm]; simp [hl, b]
  unfold deliver
  rw [hk]
  simp only []
  rw [hs, if_neg (by omega), hhl, e]
  rw [if_neg (by decide), hw, if_neg (by decide), if_neg (by omega), hma, List.take_of_length_le (by omega)]
  rfl

example : (List.replicate 80 7 : List Nat).length = 80 := by decide +kernel

/-- A packet longer than 2040 bytes overruns the receive buffer. -/
theorem C122_overflow_negation (c : Cfg) (seen : List Nat → Bool) (stale : List Nat) (ptype : Nat)
    (frame : List Nat) : doP2pd c seen stale ptype frame = .overflow ↔ 2041 ≤ frame.length := by
  unfold doP2pd
  constructor
  · intro h
    by_cases hl : 2040 < frame.length
    · omega
    · rw [if_neg hl] at h
      split at h
      · cases h
      · split at h <;> cases h
  · intro h
    rw [if_pos (by omega)]

/-- The message is passed on to other nodes unless it is the own one, and nothing is
sent into the LANs for a duplicate. -/
theorem C122_forward (c : Cfg) (own : List Nat) (dup : Bool) (seen : List Nat → Bool) (nif : Nat)
    (m : List Nat) :
    ((parser c own dup seen nif m).1 = true ↔ (m.drop 4).take (if c.v6 then 16 else 4) ≠ own) ∧
    (dup = true → (parser c own dup seen nif m).2 = .done []) ∧
    ((m.drop 4).take (if c.v6 then 16 else 4) = own → (parser c own dup seen nif m).2 = .done []) := by
  unfold parser
  by_cases h1 : (m.drop 4).take (if c.v6 then 16 else 4) = own
  · rw [if_pos h1]
    exact ⟨by simp [h1], fun _ => rfl, fun _ => rfl⟩
  · rw [if_neg h1]
    cases dup with
    | true => exact ⟨by simp [h1], fun _ => rfl, fun hx => absurd hx h1⟩
    | false => exact ⟨by simp [h1], fun hx => (by cases hx), fun hx => absurd hx h1⟩

/-- The configured time to live of the messages, if it fits: 0 stands for 255. -/
theorem C122_ttl_partial (n : Nat) (h : n < 256) : msgTtl n = if n = 0 then 255 else n := by
  unfold msgTtl
  by_cases h0 : n = 0
  · rw [if_pos h0, if_pos h0]
  · rw [if_neg h0, if_neg h0]; omega

example : msgTtl 0 = 255 ∧ msgTtl 5 = 5 := by decide

/-- An IPv6 packet at the beginning of a piece of memory, with at least the ports. -/
structure V6 (m : List Nat) : Prop where
  ver : m.getD 0 0 / 16 = 6
  ports : 44 ≤ m.length
  tot : 40 + (256 * m.getD 4 0 + m.getD 5 0) ≤ m.length

/-- The packet is UDP to this address and port. -/
def Udp6 (m : List Nat) (dst : List Nat) (port : Nat) : Prop :=
  m.getD 6 0 = 17 ∧ (m.drop 24).take 16 = dst ∧ 256 * m.getD 42 0 + m.getD 43 0 = port

private theorem inList_iff (c : Cfg) (f : Bool) (a : List Nat) (p : Nat) :
    inList c f a p = true ↔ (f, a, p) ∈ c.dests := by
  unfold inList
  rw [List.any_eq_true]
  constructor
  · rintro ⟨⟨x, y, z⟩, h1, h2⟩
    simp only [Bool.and_eq_true, beq_iff_eq] at h2
    rw [h2.1.1, h2.1.2, h2.2] at h1
    exact h1
  · intro hm
    exact ⟨_, hm, by simp⟩

/-- The same for IPv6: what is captured, and what is put into the message. -/
theorem C122_capture6_partial (c : Cfg) (hh : c.hash = false) (seen : List Nat → Bool)
    (stale pkt sent : List Nat) (h : V6 pkt) :
    captured c seen stale pkt = .send sent ↔
      (pkt.getD 24 0 = 255 ∧ ∃ dst port, Udp6 pkt dst port ∧ (true, dst, port) ∈ c.dests) ∧
      (c.ttlDec = false ∧ sent = pkt ∨
        c.ttlDec = true ∧ 2 ≤ pkt.getD 7 0 ∧ sent = pkt.set 7 (pkt.getD 7 0 - 1)) := by
  have hv : version pkt = 6 := h.ver
  have hp := h.ports
  have hchk : check c seen (pkt ++ stale) = .fresh := by
    unfold check; rw [if_pos hh]
  unfold captured
  rw [if_neg (by omega), if_pos hv, if_neg (by omega)]
  by_cases h24 : b pkt 24 ≠ 255
  · rw [if_pos h24]
    constructor
    · intro hx; cases hx
    · rintro ⟨⟨hx, _⟩, _⟩
      exact absurd hx h24
  · rw [if_neg h24]
    by_cases h6 : b pkt 6 ≠ 17
    · rw [if_pos h6]
      constructor
      · intro hx; cases hx
      · rintro ⟨⟨_, _, _, ⟨hx, _⟩, _⟩, _⟩
        exact absurd hx h6
    · rw [if_neg h6, hchk]
      simp only []
      rw [if_neg (by omega)]
      by_cases hi : inList c true ((pkt.drop 24).take 16) (be16 pkt 42) = false
      · rw [if_pos hi]
        constructor
        · intro hx; cases hx
        · rintro ⟨⟨_, dst, port, ⟨_, hd, hpo⟩, hm⟩, _⟩
          have := (inList_iff c true ((pkt.drop 24).take 16) (be16 pkt 42)).2
            (by rw [hd, show be16 pkt 42 = port from hpo]; exact hm)
          rw [hi] at this
          cases this
      · rw [if_neg hi]
        have hi' := (inList_iff c true _ _).1 (show inList c true ((pkt.drop 24).take 16) (be16 pkt 42) = true by
          simpa using hi)
        have hdst : pkt.getD 24 0 = 255 ∧ ∃ dst port, Udp6 pkt dst port ∧ (true, dst, port) ∈ c.dests :=
          ⟨Decidable.not_not.1 h24, _, _, ⟨Decidable.not_not.1 h6, rfl, rfl⟩, hi'⟩
        unfold travel
        by_cases ht : c.ttlDec = false
        · rw [if_pos ht]
          constructor
          · intro hx
            cases hx
            exact ⟨hdst, Or.inl ⟨ht, rfl⟩⟩
          · rintro ⟨_, ⟨_, rfl⟩ | ⟨hx, _⟩⟩
            · rfl
            · rw [ht] at hx; cases hx
        · rw [if_neg ht]
          have ht' : c.ttlDec = true := by simpa using ht
          by_cases h8 : b pkt 7 ≤ 1
          · rw [if_pos h8]
            constructor
            · intro hx; cases hx
            · rintro ⟨_, ⟨hx, _⟩ | ⟨_, hx, _⟩⟩
              · exact absurd hx ht
              · unfold b at h8; omega
          · rw [if_neg h8]
            simp only [Bool.false_eq_true, if_false]
            constructor
            · intro hx
              cases hx
              exact ⟨hdst, Or.inr ⟨ht', by unfold b at h8; omega, rfl⟩⟩
            · rintro ⟨_, ⟨hx, _⟩ | ⟨_, _, rfl⟩⟩
              · exact absurd hx ht
              · rfl

/-- An IPv6 packet to ff02::fb, port 5000. -/
def exPkt6 : List Nat := [0x60, 0, 0, 0, 0, 8, 17, 9, 0xfe, 0x80, 0, 0, 0, 0, 0, 0, 0, 0, 0, 0, 0, 0, 0, 1,
    0xff, 0x02, 0, 0, 0, 0, 0, 0, 0, 0, 0, 0, 0, 0, 0, 0xfb, 19, 136, 19, 136, 0, 8, 0, 0]

/-- The configuration with this destination. -/
def exCfg6 : Cfg := ⟨true, true, false, [(true, [0xff, 0x02, 0, 0, 0, 0, 0, 0, 0, 0, 0, 0, 0, 0, 0, 0xfb], 5000)]⟩

example : V6 exPkt6 ∧ captured exCfg6 (fun _ => false) [] exPkt6 = .send (exPkt6.set 7 8) :=
  ⟨⟨by decide, by decide, by decide⟩, by decide +kernel⟩

/-- The packet of an IPv6 message of another node is sent on every LAN as it was put
into the message (to the link-layer address 0, see `C122_mac_negation`). -/
theorem C122_tunnel6_partial (c : Cfg) (hv6 : c.v6 = true) (hh : c.hash = false)
    (seen : List Nat → Bool) (own own' : List Nat) (hown : own.length = 16) (hne : own ≠ own')
    (sent rest msg tail : List Nat) (h : V6 sent) (dst : List Nat) (port : Nat) (hu : Udp6 sent dst port)
    (hm : (true, dst, port) ∈ c.dests) (vtime ttl seq : Nat)
    (hmsg : gen true own vtime ttl seq sent = msg.map some ++ List.replicate 84 none) (nif : Nat) :
    parser c own' false seen nif (msg ++ tail ++ rest) =
      (true, .done (List.replicate nif (List.replicate 6 0,
        sent.take (40 + (256 * sent.getD 4 0 + sent.getD 5 0))))) := by
  obtain ⟨pre, hpre, h4⟩ : ∃ pre : List Nat, pre.length = 24 ∧ (pre.drop 4).take 16 = own ∧
      msg = pre ++ (sent ++ List.replicate (aligned sent.length - sent.length) 0) := by
    refine ⟨[132, vtime, (aligned sent.length + 12 + 96) / 256 % 256, (aligned sent.length + 12 + 96) % 256] ++
      own ++ [msgTtl ttl, 0, seq / 256 % 256, seq % 256], by simp [hown], by simp [← hown], ?_⟩
    have : (msg.map some : List (Option Nat)) = ([132, vtime, (aligned sent.length + 12 + 96) / 256 % 256,
        (aligned sent.length + 12 + 96) % 256] ++ own ++ [msgTtl ttl, 0, seq / 256 % 256, seq % 256] ++
        (sent ++ List.replicate (aligned sent.length - sent.length) 0)).map some := by
      apply List.append_cancel_right (bs := List.replicate 84 none)
      rw [← hmsg]
      unfold gen
      simp
    exact (List.map_inj_right (fun _ _ hxy => Option.some.inj hxy)).1 this
  obtain ⟨h4, hmm⟩ := h4
  unfold parser
  rw [hv6]
  simp only [if_true, Bool.false_eq_true, if_false, hdrLen]
  have e1 : ((msg ++ tail ++ rest).drop 4).take 16 = own := by
    rw [hmm, List.append_assoc, List.append_assoc, List.drop_append_of_le_length (by omega),
      List.take_append_of_le_length (by simp; omega), h4]
  have e2 : (msg ++ tail ++ rest).drop 24 =
      sent ++ (List.replicate (aligned sent.length - sent.length) 0 ++ tail ++ rest) := by
    rw [hmm, List.append_assoc, List.append_assoc, List.drop_append_of_le_length (by omega),
      List.drop_of_length_le (by omega)]
    simp
  rw [e1, if_neg hne, e2]
  obtain ⟨r, hr⟩ : ∃ r, r = List.replicate (aligned sent.length - sent.length) 0 ++ tail ++ rest := ⟨_, rfl⟩
  rw [← hr]
  have hp := h.ports
  have hto := h.tot
  have hg : ∀ j, j < sent.length → b (sent ++ r) j = b sent j := by
    intro j hj
    exact getD_append _ _ _ hj
  have hver : version (sent ++ r) = 6 := by
    unfold version; rw [hg 0 (by omega)]; exact h.ver
  have est : strip (sent ++ r) = 40 + (256 * sent.getD 4 0 + sent.getD 5 0) := by
    unfold strip
    rw [if_neg (by omega), if_pos hver]
    unfold be16
    rw [hg 4 (by omega), hg 5 (by omega)]
    rfl
  have hk : check c seen (sent ++ r) = .fresh := by
    unfold check; rw [if_pos hh]
  obtain ⟨u6, ud, up⟩ := hu
  have hw : wanted c (sent ++ r) = true := by
    unfold wanted
    rw [hv6]
    simp only [if_true]
    have e6 : b (sent ++ r) 6 = 17 := by rw [hg 6 (by omega)]; exact u6
    have ep : be16 (sent ++ r) 42 = port := by
      unfold be16
      rw [hg 42 (by omega), hg 43 (by omega)]
      exact up
    have ed : ((sent ++ r).drop 24).take 16 = dst := by
      rw [List.drop_append_of_le_length (by omega), List.take_append_of_le_length (by simp; omega), ud]
    rw [e6, ep, ed]
    simp only [beq_self_eq_true, Bool.true_and]
    exact (inList_iff c true dst port).2 hm
  have hlen : (sent ++ r).length = sent.length + r.length := by simp
  unfold deliver
  rw [hk]
  simp only []
  rw [est]
  by_cases hn : nif = 0
  · rw [if_pos (Or.inl hn), hn]; rfl
  · rw [if_neg (show ¬ (nif = 0 ∨ 40 + (256 * sent.getD 4 0 + sent.getD 5 0) = 0) by omega), hv6]
    simp only [if_true]
    rw [if_neg (show ¬ ((sent ++ r).length < 20 ∨ (sent ++ r).length < 44) by omega),
      if_neg (by rw [hw]; simp), if_neg (by omega), C122_mac_negation c hv6,
      List.take_append_of_le_length (by omega)]

example : parser exCfg6 (List.replicate 16 1) false (fun _ => false) 1
    ([132, 0, 0, 156] ++ List.replicate 16 7 ++ [255, 0, 0, 0] ++ exPkt6 ++ List.replicate 84 9) =
    (true, .done [([0, 0, 0, 0, 0, 0], exPkt6)]) := by decide +kernel

/-- Nothing gets into a LAN but UDP packets to configured destinations: IPv6. -/
theorem C122_wanted6 (c : Cfg) (hv6 : c.v6 = true) (seen : List Nat → Bool) (nif : Nat) (m : List Nat)
    (out : List (List Nat × List Nat)) (hd : deliver c seen nif m = .done out) (hne : out ≠ []) :
    ∃ dst port, Udp6 m dst port ∧ (true, dst, port) ∈ c.dests := by
  unfold deliver at hd
  cases hk : check c seen m with
  | abort => rw [hk] at hd; cases hd
  | recent => rw [hk] at hd; cases hd; exact absurd rfl hne
  | fresh =>
    rw [hk] at hd
    simp only [] at hd
    by_cases h1 : nif = 0 ∨ strip m = 0
    · rw [if_pos h1] at hd; cases hd; exact absurd rfl hne
    · rw [if_neg h1] at hd
      by_cases h2 : m.length < 20 ∨ m.length < (if c.v6 then 44 else 4 * hl m + 4)
      · rw [if_pos h2] at hd; cases hd
      · rw [if_neg h2] at hd
        by_cases h3 : wanted c m = false
        · rw [if_pos h3] at hd; cases hd; exact absurd rfl hne
        · have hw : wanted c m = true := by simpa using h3
          unfold wanted at hw
          rw [hv6] at hw
          simp only [if_true, Bool.and_eq_true, beq_iff_eq] at hw
          exact ⟨_, _, ⟨hw.1, rfl, rfl⟩, (inList_iff c true _ _).1 hw.2⟩

example : deliver exCfg6 (fun _ => false) 1 exPkt6 = .done [([0, 0, 0, 0, 0, 0], exPkt6)] ∧
    deliver exCfg6 (fun _ => false) 1 (exPkt6.set 43 0) = .done [] := by decide +kernel

end Verif.P2pd
