import Verif.IpcalcModel

/-!
# C10, C11, C47, C48: prefixes and netmasks
-/

namespace Verif.Ipcalc

/-- bit `i` of a byte string, most significant bit of the first byte first -/
def bit (m : List Nat) (i : Nat) : Bool := (m.getD (i / 8) 0 / 2 ^ (7 - i % 8)) % 2 == 1

/-- specification of a netmask: `n` one bits followed by zero bits -/
def IsMask (m : List Nat) (n : Nat) : Prop :=
  (∀ b ∈ m, b < 256) ∧ ∀ i, i < 8 * m.length → bit m i = decide (i < n)

private theorem bit_cons (b : Nat) (m : List Nat) (i : Nat) :
    bit (b :: m) i = if i < 8 then (b / 2 ^ (7 - i)) % 2 == 1 else bit m (i - 8) := by
  unfold bit
  by_cases h : i < 8
  · rw [if_pos h]
    have h1 : i / 8 = 0 := by omega
    have h2 : i % 8 = i := by omega
    rw [h1, h2]; rfl
  · rw [if_neg h]
    have h1 : i / 8 = (i - 8) / 8 + 1 := by omega
    have h2 : i % 8 = (i - 8) % 8 := by omega
    rw [h1, h2]; rfl

private theorem byte_mask : ∀ p < 9, ∀ i < 8, ((255 * 2 ^ (8 - p) % 256 / 2 ^ (7 - i)) % 2 == 1) = decide (i < p) := by
  decide

private theorem byte_last : ∀ p < 9, lastByte (255 * 2 ^ (8 - p) % 256) = some p ∧
    (p < 8 → 255 * 2 ^ (8 - p) % 256 ≠ 255) ∧ 255 * 2 ^ (8 - p) % 256 < 256 := by decide

private theorem last_byte : ∀ b < 256, ∀ k < 9, lastByte b = some k → b = 255 * 2 ^ (8 - k) % 256 := by decide +kernel

private theorem last_lt : ∀ b < 256, (lastByte b).all (fun k => k < 9) = true := by decide +kernel

private theorem lastByte_spec (b k : Nat) (hb : b < 256) (h : lastByte b = some k) :
    k < 9 ∧ b = 255 * 2 ^ (8 - k) % 256 := by
  have h1 := last_lt b hb
  rw [h] at h1
  simp only [Option.all_some, decide_eq_true_eq] at h1
  exact ⟨h1, last_byte b hb k h1 h⟩

private theorem isMask_cons (b : Nat) (m : List Nat) (n : Nat) :
    IsMask (b :: m) n ↔ b = 255 * 2 ^ (8 - min n 8) % 256 ∧ IsMask m (n - 8) := by
  constructor
  · rintro ⟨h1, h2⟩
    have hb : b < 256 := h1 b (by simp)
    constructor
    · have key : ∀ b < 256, ∀ p < 9, (∀ i < 8, ((b / 2 ^ (7 - i)) % 2 == 1) = decide (i < p)) → b = 255 * 2 ^ (8 - p) % 256 := by
        decide +kernel
      refine key b hb (min n 8) (by omega) ?_
      intro i hi
      have := h2 i (by simp; omega)
      rw [bit_cons, if_pos hi] at this
      rw [this]
      exact decide_eq_decide.2 (by omega)
    · refine ⟨fun b hb => h1 b (by simp [hb]), ?_⟩
      intro i hi
      have := h2 (i + 8) (by simp; omega)
      rw [bit_cons, if_neg (by omega), Nat.add_sub_cancel] at this
      rw [this]
      exact decide_eq_decide.2 (by omega)
  · rintro ⟨h1, h2, h3⟩
    constructor
    · intro x hx
      rcases List.mem_cons.1 hx with rfl | hx
      · rw [h1]; omega
      · exact h2 x hx
    · intro i hi
      rw [bit_cons]
      split
      · rename_i h8
        rw [h1, byte_mask (min n 8) (by omega) i h8]
        exact decide_eq_decide.2 (by omega)
      · rw [h3 (i - 8) (by simp at hi; omega)]
        exact decide_eq_decide.2 (by omega)

private theorem isMask_zero (l : List Nat) : IsMask (l.map (fun _ => 0)) 0 := by
  induction l with
  | nil => exact ⟨by simp, by simp⟩
  | cons a l ih => rw [List.map_cons, isMask_cons]; exact ⟨by simp, ih⟩

private theorem mask_unique (m : List Nat) : ∀ (m' : List Nat) (n : Nat), m.length = m'.length → IsMask m n → IsMask m' n → m = m' := by
  induction m with
  | nil => intro m' n hl _ _; cases m' with | nil => rfl | cons => cases hl
  | cons b m ih =>
    intro m' n hl h1 h2
    cases m' with
    | nil => cases hl
    | cons b' m' =>
      rw [isMask_cons] at h1 h2
      rw [h1.1, h2.1, ih m' (n - 8) (by simpa using hl) h1.2 h2.2]

private theorem p2n (a : List Nat) : ∀ n, n ≤ 8 * a.length → a ≠ [] →
    (prefixToNetmask a n).1 = 1 ∧ (prefixToNetmask a n).2.length = a.length ∧ IsMask (prefixToNetmask a n).2 n := by
  induction a with
  | nil => intro n _ h; exact absurd rfl h
  | cons x a ih =>
    intro n hn _
    rw [prefixToNetmask]
    split
    · rename_i h8
      have hne : a ≠ [] := by rintro rfl; simp at hn; omega
      obtain ⟨h1, h2, h3⟩ := ih (n - 8) (by simp at hn; omega) hne
      refine ⟨h1, by simp [h2], ?_⟩
      rw [isMask_cons]
      refine ⟨?_, h3⟩
      have : min n 8 = 8 := by omega
      rw [this]
    · rename_i h8
      refine ⟨rfl, by simp, ?_⟩
      rw [isMask_cons]
      have : min n 8 = n := by omega
      rw [this]
      have h0 : n - 8 = 0 := by omega
      rw [h0]
      exact ⟨rfl, isMask_zero a⟩

private theorem n2p (m : List Nat) : ∀ n c, n ≤ 8 * m.length → c + 8 * m.length < 256 → IsMask m n →
    netmaskToPrefix m c = c + n := by
  induction m with
  | nil => intro n c hn hc _; simp at hn; subst hn; simp [netmaskToPrefix]; omega
  | cons b m ih =>
    intro n c hn hc h
    simp only [List.length_cons] at hn hc
    rw [isMask_cons] at h
    rw [netmaskToPrefix]
    by_cases h8 : n < 8
    · have hm : min n 8 = n := by omega
      rw [hm] at h
      obtain ⟨e1, e2, e3⟩ := byte_last n (by omega)
      rw [if_neg (by rw [h.1]; exact e2 h8), h.1, e1]
      simp only
      omega
    · have hm : min n 8 = 8 := by omega
      rw [hm] at h
      have hb : b = 255 := h.1
      rw [if_pos hb, ih (n - 8) ((c + 8) % 65536) (by omega) (by omega) h.2]
      omega

/-- **C10.**  For addresses of `L` bytes (1 ≤ L ≤ 31, so 4 and 16 in particular) and every prefix length
up to `8 L`, the conversion to a netmask succeeds, whatever was in the buffer, and yields exactly the
mask with that many leading ones; converting it back gives the same prefix length. -/
theorem C10_prefix_roundtrip (buf : List Nat) (n : Nat) (hL : buf ≠ []) (hL2 : buf.length ≤ 31)
    (hn : n ≤ 8 * buf.length) :
    ∃ m, prefixToNetmask buf n = (1, m) ∧ m.length = buf.length ∧ IsMask m n ∧ toPrefix m = n := by
  obtain ⟨h1, h2, h3⟩ := p2n buf n hn hL
  refine ⟨(prefixToNetmask buf n).2, Prod.ext h1 rfl, h2, h3, ?_⟩
  have := n2p (prefixToNetmask buf n).2 n 0 (by rw [h2]; exact hn) (by rw [h2]; omega) h3
  rw [toPrefix, this]; omega

/-- **C10.**  Every proper netmask converts to its number of leading ones and back to itself. -/
theorem C10_netmask_roundtrip (m buf : List Nat) (n : Nat) (hL : m ≠ []) (hL2 : m.length ≤ 31)
    (hb : buf.length = m.length) (hn : n ≤ 8 * m.length) (hm : IsMask m n) :
    toPrefix m = n ∧ prefixToNetmask buf (toPrefix m) = (1, m) := by
  have h1 : toPrefix m = n := by
    have := n2p m n 0 hn (by omega) hm
    rw [toPrefix, this]; omega
  have hne : buf ≠ [] := by
    rintro rfl
    cases m with
    | nil => exact hL rfl
    | cons => simp at hb
  obtain ⟨e1, e2, e3⟩ := p2n buf n (by omega) hne
  refine ⟨h1, ?_⟩
  rw [h1]
  exact Prod.ext e1 (mask_unique _ m n (e2.trans hb) e3 hm)

/-- 255.255.240.0 and a 16-byte mask of 65 bits -/
example : toPrefix [255, 255, 240, 0] = 20 ∧ (prefixToNetmask [1, 2, 3, 4] 20) = (1, [255, 255, 240, 0]) ∧
    toPrefix [255, 255, 255, 255, 255, 255, 255, 255, 128, 0, 0, 0, 0, 0, 0, 0] = 65 := by decide

example : IsMask [255, 255, 240, 0] 20 := by
  refine ⟨by decide, ?_⟩
  have : ∀ i < 32, bit [255, 255, 240, 0] i = decide (i < 20) := by decide
  intro i hi; exact this i hi

/-- a prefix length beyond the address size is refused (return value 0) and fills the buffer with ones -/
theorem C10_too_long_refused (buf : List Nat) (n : Nat) (hn : 8 * buf.length < n) :
    (prefixToNetmask buf n).1 = 0 := by
  induction buf generalizing n with
  | nil => rfl
  | cons x a ih =>
    simp only [List.length_cons] at hn
    rw [prefixToNetmask, if_pos (by omega)]
    exact ih (n - 8) (by omega)

example : prefixToNetmask [0, 0, 0, 0] 33 = (0, [255, 255, 255, 255]) := by decide

private theorem n2p_sound (m : List Nat) : ∀ c, (∀ b ∈ m, b < 256) → c + 8 * m.length < 255 →
    netmaskToPrefix m c ≠ 255 →
    c ≤ netmaskToPrefix m c ∧ ∀ i, i < 8 * ((netmaskToPrefix m c - c) / 8 + 1) → i < 8 * m.length →
      bit m i = decide (c + i < netmaskToPrefix m c) := by
  induction m with
  | nil => intro c _ hc _; simp [netmaskToPrefix]; omega
  | cons b m ih =>
    intro c hb hc hne
    simp only [List.length_cons] at hc
    rw [netmaskToPrefix] at hne ⊢
    have hb0 : b < 256 := hb b (by simp)
    by_cases h : b = 255
    · rw [if_pos h] at hne ⊢
      have hc8 : (c + 8) % 65536 = c + 8 := by omega
      rw [hc8] at hne ⊢
      obtain ⟨h1, h2⟩ := ih (c + 8) (fun x hx => hb x (by simp [hx])) (by omega) hne
      refine ⟨by omega, ?_⟩
      intro i hi hl
      rw [bit_cons]
      split
      · have : ∀ i < 8, ((255 / 2 ^ (7 - i)) % 2 == 1) = true := by decide
        rw [h, this i (by assumption)]
        symm; rw [decide_eq_true_iff]; omega
      · rw [h2 (i - 8) (by omega) (by simp at hl; omega)]
        exact decide_eq_decide.2 (by omega)
    · rw [if_neg h] at hne ⊢
      cases hk : lastByte b with
      | none => rw [hk] at hne; exact absurd rfl hne
      | some k =>
        obtain ⟨hk9, hbk⟩ := lastByte_spec b k hb0 hk
        have hk8 : k < 8 := by
          refine Nat.lt_of_le_of_ne (by omega) fun e => h ?_
          rw [hbk, e]
        have e1 : (c + k) % 65536 % 256 = c + k := by omega
        show c ≤ (c + k) % 65536 % 256 ∧ ∀ i, i < 8 * (((c + k) % 65536 % 256 - c) / 8 + 1) → i < 8 * (b :: m).length →
          bit (b :: m) i = decide (c + i < (c + k) % 65536 % 256)
        rw [e1]
        refine ⟨by omega, ?_⟩
        intro i hi hl
        rw [bit_cons, if_pos (by omega), hbk, byte_mask k hk9 i (by omega)]
        exact decide_eq_decide.2 (by omega)

/-- **C11 (partial).**  Full claim: a netmask that is not a run of ones followed by zeros is never
converted into a usable prefix length (one within the address size).  What holds: a result other than
the error value 255 is right up to the end of the byte in which the ones stop.  Missing: the bytes after
that one are not examined at all (`C11_hole_accepted`). -/
theorem C11_examined_bytes_partial (m : List Nat) (hb : ∀ b ∈ m, b < 256) (hL : m.length ≤ 31)
    (hne : toPrefix m ≠ 255) :
    ∀ i, i < 8 * (toPrefix m / 8 + 1) → i < 8 * m.length → bit m i = decide (i < toPrefix m) := by
  have := n2p_sound m 0 hb (by omega) hne
  intro i hi hl
  have h := this.2 i (by simpa [toPrefix] using hi) hl
  rw [h, toPrefix]
  exact decide_eq_decide.2 (by omega)

example : toPrefix [255, 240, 0, 0] = 12 ∧ toPrefix [255, 241, 0, 0] = 255 := by decide

/-- **C11 is false**: the mask 255.0.255.0 is accepted as prefix length 8. -/
theorem C11_hole_accepted : toPrefix [255, 0, 255, 0] = 8 ∧ ¬ ∃ n, IsMask [255, 0, 255, 0] n := by
  refine ⟨by decide, ?_⟩
  rintro ⟨n, -, h⟩
  have h1 := h 8 (by simp)
  have h2 := h 16 (by simp)
  have e1 : bit [255, 0, 255, 0] 8 = false := by decide
  have e2 : bit [255, 0, 255, 0] 16 = true := by decide
  rw [e1] at h1; rw [e2] at h2
  have := of_decide_eq_false h1.symm
  have := of_decide_eq_true h2.symm
  omega

/-- and the error value 255 itself, which `olsr_input_hna` (hna_set.c:446, 477) stores as the prefix length
of the announced network, makes the later membership test undefined. -/
theorem C11_bogus_mask_prefix_undefined (ip net : BitVec 32) :
    inNet4 ip net (toPrefix [255, 1, 0, 0]) = none := by
  have : toPrefix [255, 1, 0, 0] = 255 := by decide
  rw [this]; rfl

/-! ### C47: network membership -/

private theorem mask_bit (plen : Nat) (hp : plen ≤ 32) : ∃ m, netmask4 plen = some m ∧
    ∀ i, i < 32 → m.getLsbD i = decide (32 - plen ≤ i) := by
  unfold netmask4
  by_cases h0 : plen = 0
  · rw [if_pos h0]
    refine ⟨_, rfl, ?_⟩
    intro i hi
    have : ¬ (32 - plen ≤ i) := by omega
    simp [this]
  · rw [if_neg h0, if_pos hp]
    refine ⟨_, rfl, ?_⟩
    intro i hi
    rw [BitVec.getLsbD_shiftLeft, BitVec.getLsbD_allOnes]
    by_cases h : 32 - plen ≤ i
    · have h2 : ¬ (i < 32 - plen) := by omega
      have h3 : i - (32 - plen) < 32 := by omega
      simp [h, h2, h3, hi]
    · have h2 : i < 32 - plen := by omega
      simp [h, h2]

private theorem inNet4_spec (ip net : BitVec 32) (plen : Nat) (hp : plen ≤ 32) :
    ∃ r, inNet4 ip net plen = some r ∧ (r = true ↔ ∀ i, i < plen → ip.getMsbD i = net.getMsbD i) := by
  obtain ⟨m, h1, h2⟩ := mask_bit plen hp
  refine ⟨_, by rw [inNet4, h1]; rfl, ?_⟩
  rw [beq_iff_eq]
  constructor
  · intro h i hi
    have := congrArg (fun x => BitVec.getLsbD x (31 - i)) h
    simp only [BitVec.getLsbD_and] at this
    rw [h2 (31 - i) (by omega)] at this
    have hd : decide (32 - plen ≤ 31 - i) = true := by rw [decide_eq_true_iff]; omega
    rw [hd, Bool.and_true, Bool.and_true] at this
    simp only [BitVec.getMsbD]
    have h32 : i < 32 := by omega
    simp only [h32, decide_true, Bool.true_and]
    exact this
  · intro h
    apply BitVec.eq_of_getLsbD_eq
    intro i hi
    rw [BitVec.getLsbD_and, BitVec.getLsbD_and, h2 i hi]
    by_cases hc : 32 - plen ≤ i
    · have := h (31 - i) (by omega)
      simp only [BitVec.getMsbD] at this
      have h32 : 31 - i < 32 := by omega
      have h31 : 32 - 1 - (31 - i) = i := by omega
      simp only [h32, decide_true, Bool.true_and, h31] at this
      rw [this]
    · simp [hc]

/-- **C47.**  For every pair of IPv4 addresses and every prefix length up to 32, the membership test is
defined and true exactly if the first `plen` bits agree. -/
theorem C47_ipv4 (ip net : BitVec 32) (plen : Nat) (hp : plen ≤ 32) :
    ∃ r, inNet4 ip net plen = some r ∧ (r = true ↔ ∀ i, i < plen → ip.getMsbD i = net.getMsbD i) :=
  inNet4_spec ip net plen hp

/-- bit `i` of an IPv6 address given as 32-bit words -/
def wordBit (a : List (BitVec 32)) (i : Nat) : Bool := (a.getD (i / 32) 0).getMsbD (i % 32)

private theorem wordBit_cons (w : BitVec 32) (a : List (BitVec 32)) (i : Nat) :
    wordBit (w :: a) i = if i < 32 then w.getMsbD i else wordBit a (i - 32) := by
  unfold wordBit
  by_cases h : i < 32
  · rw [if_pos h]
    have h1 : i / 32 = 0 := by omega
    have h2 : i % 32 = i := by omega
    rw [h1, h2]; rfl
  · rw [if_neg h]
    have h1 : i / 32 = (i - 32) / 32 + 1 := by omega
    have h2 : i % 32 = (i - 32) % 32 := by omega
    rw [h1, h2]; rfl

private theorem inNet6_spec (n : Nat) : ∀ (ip net : List (BitVec 32)) (plen : Nat), ip.length = n + 1 → net.length = n + 1 →
    plen ≤ 32 * (n + 1) →
    ∃ r, inNet6 ip net plen = some r ∧ (r = true ↔ ∀ i, i < plen → wordBit ip i = wordBit net i) := by
  induction n with
  | zero =>
    intro ip net plen h1 h2 hp
    match ip, net with
    | [i], [n] =>
      rw [inNet6, if_neg (by omega)]
      obtain ⟨r, e1, e2⟩ := inNet4_spec i n plen (by omega)
      refine ⟨r, e1, e2.trans ?_⟩
      refine forall_congr' fun k => forall_congr' fun hk => ?_
      rw [wordBit_cons, wordBit_cons, if_pos (by omega), if_pos (by omega)]
  | succ n ih =>
    intro ip net plen h1 h2 hp
    match ip, net with
    | i :: is, x :: ns =>
      rw [inNet6]
      by_cases hgt : plen > 32
      · rw [if_pos hgt]
        by_cases he : i = x
        · rw [if_neg (by simp [he])]
          obtain ⟨r, e1, e2⟩ := ih is ns (plen - 32) (by simpa using h1) (by simpa using h2) (by omega)
          refine ⟨r, e1, e2.trans ?_⟩
          constructor
          · intro h k hk
            rw [wordBit_cons, wordBit_cons]
            split
            · rw [he]
            · exact h _ (by omega)
          · intro h k hk
            have := h (k + 32) (by omega)
            rw [wordBit_cons, wordBit_cons, if_neg (by omega), if_neg (by omega), Nat.add_sub_cancel] at this
            exact this
        · rw [if_pos (by exact he)]
          refine ⟨false, rfl, ?_⟩
          constructor
          · intro h; cases h
          · intro h
            exfalso
            apply he
            apply BitVec.eq_of_getMsbD_eq
            intro k hk
            have := h k (by omega)
            rw [wordBit_cons, wordBit_cons, if_pos hk, if_pos hk] at this
            exact this
      · rw [if_neg hgt]
        obtain ⟨r, e1, e2⟩ := inNet4_spec i x plen (by omega)
        refine ⟨r, e1, e2.trans ?_⟩
        refine forall_congr' fun k => forall_congr' fun hk => ?_
        rw [wordBit_cons, wordBit_cons, if_pos (by omega), if_pos (by omega)]

/-- **C47.**  The same for IPv6 addresses (four words) and prefix lengths up to 128. -/
theorem C47_ipv6 (ip net : List (BitVec 32)) (plen : Nat) (h1 : ip.length = 4) (h2 : net.length = 4) (hp : plen ≤ 128) :
    ∃ r, inNet6 ip net plen = some r ∧ (r = true ↔ ∀ i, i < plen → wordBit ip i = wordBit net i) :=
  inNet6_spec 3 ip net plen h1 h2 (by omega)

/-- 10.1.2.3 in 10.1.0.0/15; 2001:db8:1::/47 -/
example : inNet4 0x0a010203#32 0x0a000000#32 15 = some true ∧ inNet4 0x0a010203#32 0x0a000000#32 16 = some false ∧
    inNet6 [0x20010db8#32, 0x00010000#32, 0, 1] [0x20010db8#32, 0, 0, 0] 47 = some true ∧
    inNet6 [0x20010db8#32, 0x00010000#32, 0, 1] [0x20010db8#32, 0, 0, 0] 48 = some false := by decide

/-- **C47, outside the range**: with a stored prefix length above the address size (255 is stored for a bogus
netmask) the IPv6 test reads past the address whenever the address equals the network. -/
theorem C47_ipv6_overread (ip : List (BitVec 32)) (plen : Nat) (h1 : ip.length = 4) (hp : 128 < plen) :
    inNet6 ip ip plen = none := by
  match ip with
  | [a, b, c, d] =>
    rw [inNet6, if_pos (by omega), if_neg (by simp), inNet6, if_pos (by omega), if_neg (by simp),
      inNet6, if_pos (by omega), if_neg (by simp), inNet6, if_pos (by omega), if_neg (by simp)]
    simp only [inNet6]

/-! ### C48: which prefixes count as Internet gateways -/

/-- **C48 (partial).**  Full claim: exactly 0.0.0.0/0 (IPv4) and 2000::/3 and ::ffff:0:0/96 (IPv6) are taken
for Internet gateway announcements.  True for IPv4 and for the mapped prefix; false for /3
(`C48_any_slash3_is_gateway`). -/
theorem C48_gateway_prefix_partial (addr4 : BitVec 32) (addr6 : List Nat) (plen : Nat) :
    (isV4InetGw addr4 plen = true ↔ plen = 0 ∧ addr4 = 0#32) ∧
    (plen ≠ 3 → (isInetGw6 addr6 plen = true ↔
      plen = 96 ∧ addr6.take 12 = [0, 0, 0, 0, 0, 0, 0, 0, 0, 0, 255, 255])) := by
  constructor
  · simp [isV4InetGw]
  · intro h3
    simp [isInetGw6, isV6InetGw, isMapped4InetGw, h3]

example : isInetGw6 [0, 0, 0, 0, 0, 0, 0, 0, 0, 0, 255, 255, 0, 0, 0, 0] 96 = true ∧
    isInetGw6 [0, 0, 0, 0, 0, 0, 0, 0, 0, 0, 255, 255, 0, 0, 0, 0] 95 = false := by decide

/-- **C48 is false for /3**: every prefix of length 3, for example e000::/3, counts as the IPv6
Internet route, because zero bytes are compared. -/
theorem C48_any_slash3_is_gateway (addr6 : List Nat) : isInetGw6 addr6 3 = true := by
  simp [isInetGw6, isV6InetGw]

end Verif.Ipcalc
