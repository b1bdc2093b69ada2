import Verif.MantissaLemmas

/-!
# C01, C02: the one-byte vtime/htime codec

Independent specification: RFC 3626 section 18.3 defines the value of a byte
with high nibble `a` and low nibble `b` as `C * (1 + a/16) * 2^b` seconds with
`C = 1/16`, i.e. `1000 * (16 + a) * 2^b / 256` milliseconds.
-/

namespace Verif.Mantissa

/-- RFC 3626 value of a vtime byte, in milliseconds times 256 (exact). -/
def rfcValue256 (me : Nat) : Nat := 1000 * (16 + me / 16) * 2 ^ (me % 16)

/-- the decoder computes the RFC value rounded down to a whole millisecond, for all 256 bytes -/
theorem C01_decoder_is_rfc : ∀ me < 256, meToRel me = rfcValue256 me / 256 := by decide +kernel

/-- The encoder has no undefined behaviour and returns a byte, for every 32-bit interval. -/
theorem C01_encoder_total (i : Nat) (hi : i < 2 ^ 32) : ∃ me, relToMe i = some me ∧ me < 256 := by
  rcases relToMe_cases i hi with ⟨-, h⟩ | ⟨-, h⟩ | ⟨b, h1, h2, h3, h4, h5, h6, h7⟩
  · exact ⟨16, h, by decide⟩
  · exact ⟨255, h, by decide⟩
  · exact ⟨_, h5, by omega⟩

/-- From 125 ms upwards the receiver never keeps information longer than the sender asked for,
and loses less than one sixteenth of the interval plus one millisecond. -/
theorem C01_bounded_loss (i me : Nat) (hlo : 125 ≤ i) (hi : i < 4096000) (h : relToMe i = some me) :
    meToRel me ≤ i ∧ 16 * (i - meToRel me) < i + 16 := by
  rcases relToMe_cases i (by omega) with ⟨h0, -⟩ | ⟨h0, -⟩ | ⟨b, h1, h2, h3, h4, h5, h6, h7⟩
  · omega
  · omega
  · rw [h5] at h; injection h with h; subst h
    obtain ⟨-, -, d1, d2⟩ := decode_main i b h1 h2 h3 h4
    refine ⟨d1, ?_⟩
    omega

example : ∃ me, relToMe 20000 = some me ∧ meToRel me ≤ 20000 ∧ 16 * (20000 - meToRel me) < 20000 + 16 :=
  ⟨0x48, by decide, by decide, by decide⟩

/-- The byte chosen is the best possible one: no byte decodes to a larger value that is still
at most the interval. -/
theorem C01_encoder_optimal (i me : Nat) (hlo : 125 ≤ i) (hi : i < 2 ^ 32) (h : relToMe i = some me) :
    ∀ me' < 256, rfcValue256 me' ≤ 256 * i → rfcValue256 me' ≤ rfcValue256 me := by
  rcases relToMe_cases i hi with ⟨h0, -⟩ | ⟨h0, h1⟩ | ⟨b, h1, h2, h3, h4, h5, h6, h7⟩
  · omega
  · rw [h1] at h; injection h with h; subst h
    have hall : ∀ x < 256, rfcValue256 x ≤ rfcValue256 255 := by decide +kernel
    exact fun me' hm _ => hall me' hm
  · rw [h5] at h; injection h with h; subst h
    intro me' hm hle
    -- q = scaled mantissa of the chosen byte
    generalize hq : i * 32 / (125 * 2 ^ b) = q at *
    have e1 : ((q - 16) * 16 + b) / 16 = q - 16 := by omega
    have e2 : ((q - 16) * 16 + b) % 16 = b := by omega
    have hv : rfcValue256 ((q - 16) * 16 + b) = 1000 * q * 2 ^ b := by
      unfold rfcValue256; rw [e1, e2, show 16 + (q - 16) = q by omega]
    rw [hv]
    have hub : 256 * i < 1000 * (q + 1) * 2 ^ b := by
      have hpos : 0 < 125 * 2 ^ b := Nat.mul_pos (by decide) (Nat.two_pow_pos b)
      have := Nat.lt_mul_div_succ (i * 32) hpos
      rw [hq] at this
      have e : 125 * 2 ^ b * (q + 1) * 8 = 1000 * (q + 1) * 2 ^ b := by
        rw [Nat.mul_right_comm 125, Nat.mul_right_comm _ _ 8, Nat.mul_right_comm 125]
      omega
    -- compare exponents
    unfold rfcValue256 at hle ⊢
    generalize ha' : me' / 16 = a' at *
    generalize hb' : me' % 16 = b' at *
    have ha16 : a' < 16 := by omega
    have hb16 : b' < 16 := by omega
    rcases Nat.lt_trichotomy b' b with hlt | heq | hgt
    · -- smaller exponent: value < 32 * 2^b' * 1000 ≤ 16 * 2^b * 1000
      have hp : 2 ^ b = 2 ^ (b' + 1) * 2 ^ (b - b' - 1) := by
        rw [← Nat.pow_add]; congr 1; omega
      have h2 : 2 ^ (b' + 1) ≤ 2 ^ b := Nat.pow_le_pow_right (by decide) (by omega)
      have h2' : 2 ^ (b' + 1) = 2 * 2 ^ b' := by rw [Nat.pow_succ]; omega
      calc 1000 * (16 + a') * 2 ^ b' ≤ 1000 * 32 * 2 ^ b' := Nat.mul_le_mul_right _ (by omega)
        _ ≤ 1000 * 16 * 2 ^ b := by omega
        _ ≤ 1000 * q * 2 ^ b := Nat.mul_le_mul_right _ (by omega)
    · subst heq
      have hlt : 1000 * (16 + a') * 2 ^ b' < 1000 * (q + 1) * 2 ^ b' := by omega
      have := Nat.lt_of_mul_lt_mul_right hlt
      exact Nat.mul_le_mul_right _ (by omega)
    · exfalso
      have h2 : 2 ^ (b + 1) ≤ 2 ^ b' := Nat.pow_le_pow_right (by decide) (by omega)
      have h2' : 2 ^ (b + 1) = 2 * 2 ^ b := by rw [Nat.pow_succ]; omega
      have h3 : 1000 * 16 * 2 ^ b' ≤ 1000 * (16 + a') * 2 ^ b' := Nat.mul_le_mul_right _ (by omega)
      omega

example : 125 ≤ 5000 ∧ relToMe 5000 = some 0x46 ∧ rfcValue256 0x46 ≤ 256 * 5000 := by decide

/-- Everything above the largest representable interval saturates to it. -/
theorem C01_saturates (i : Nat) (hlo : 3968000 ≤ i) (hi : i < 2 ^ 32) :
    relToMe i = some 0xff ∧ meToRel 0xff = 3968000 := by
  refine ⟨?_, by decide⟩
  rcases relToMe_cases i hi with ⟨h0, -⟩ | ⟨h0, h1⟩ | ⟨b, h1, h2, h3, h4, h5, h6, h7⟩
  · omega
  · exact h1
  · rw [h5]
    have hb : b = 15 := by
      rcases Nat.lt_or_ge b 15 with h | h
      · have : 2 ^ b ≤ 2 ^ 14 := Nat.pow_le_pow_right (by decide) (by omega)
        omega
      · omega
    subst hb
    simp only [Nat.reduceMul, Nat.reducePow] at *
    congr 1; omega

/-- Below 125 ms every interval becomes 66 ms: longer than asked for below 66 ms. -/
theorem C01_small_intervals (i : Nat) (hi : i < 125) : relToMe i = some 0x10 ∧ meToRel 0x10 = 66 := by
  refine ⟨?_, by decide⟩
  rcases relToMe_cases i (by omega) with ⟨-, h⟩ | ⟨h0, -⟩ | ⟨b, h1, h2, h3, h4, -⟩
  · exact h
  · omega
  · have : 1 ≤ 2 ^ (b - 1) := Nat.one_le_two_pow
    omega

/-- The 1/16 loss bound is false below 125 ms although the byte format could meet it:
124 ms is sent as 66 ms while byte 0xF0 means 121 ms. -/
theorem C01_loss_bound_fails_below_125 :
    ∃ i me, relToMe i = some me ∧ ¬ (16 * (i - meToRel me) < i + 16) ∧
      ∃ me' < 256, meToRel me < meToRel me' ∧ meToRel me' ≤ i :=
  ⟨124, 0x10, by decide, by decide, 0xF0, by decide, by decide, by decide⟩

/-! ### C02 -/

/-- A longer interval is never advertised as a shorter one. -/
theorem C02_monotone (i j m n : Nat) (hij : i ≤ j) (hj : j < 2 ^ 32)
    (hm : relToMe i = some m) (hn : relToMe j = some n) : meToRel m ≤ meToRel n := by
  rcases relToMe_cases i (by omega) with ⟨h0, h⟩ | ⟨h0, h⟩ | ⟨b, h1, h2, h3, h4, h5, h6, h7⟩
  · rw [h] at hm; injection hm with hm; subst hm
    have h66 : meToRel 16 = 66 := by decide
    rw [h66]
    rcases relToMe_cases j hj with ⟨g0, g⟩ | ⟨g0, g⟩ | ⟨c, g1, g2, g3, g4, g5, g6, g7⟩
    · rw [g] at hn; injection hn with hn; subst hn; decide
    · rw [g] at hn; injection hn with hn; subst hn; decide
    · rw [g5] at hn; injection hn with hn; subst hn
      obtain ⟨-, d, -, -⟩ := decode_main j c g1 g2 g3 g4
      have : 1 ≤ 2 ^ (c - 1) := Nat.one_le_two_pow
      omega
  · rw [h] at hm; injection hm with hm; subst hm
    obtain ⟨hs, -⟩ := C01_saturates j (by omega) hj
    rw [hs] at hn; injection hn with hn; subst hn; exact Nat.le_refl _
  · rw [h5] at hm; injection hm with hm; subst hm
    obtain ⟨e1, -, d1, -⟩ := decode_main i b h1 h2 h3 h4
    rcases relToMe_cases j hj with ⟨g0, g⟩ | ⟨g0, g⟩ | ⟨c, g1, g2, g3, g4, g5, g6, g7⟩
    · have : 1 ≤ 2 ^ (b - 1) := Nat.one_le_two_pow
      omega
    · rw [g] at hn; injection hn with hn; subst hn
      have hle : (i * 32 / (125 * 2 ^ b) - 16) * 16 + b < 256 := by omega
      have hall : ∀ x < 256, meToRel x ≤ meToRel 255 := by decide +kernel
      exact hall _ hle
    · rw [g5] at hn; injection hn with hn; subst hn
      obtain ⟨e2, d2, -, -⟩ := decode_main j c g1 g2 g3 g4
      rcases Nat.lt_trichotomy b c with hlt | heq | hgt
      · have : 2 ^ b ≤ 2 ^ (c - 1) := Nat.pow_le_pow_right (by decide) (by omega)
        omega
      · subst heq
        rw [e1, e2]
        apply Nat.div_le_div_right
        apply Nat.mul_le_mul_right
        apply Nat.div_le_div_right
        omega
      · have : 2 ^ c ≤ 2 ^ (b - 1) := Nat.pow_le_pow_right (by decide) (by omega)
        omega

example : (20000:Nat) ≤ 30000 ∧ relToMe 20000 = some 0x48 ∧ relToMe 30000 = some 0xE8 ∧
    meToRel 0x48 < meToRel 0xE8 := by decide

/-- Re-encoding a decoded byte returns the same byte for every byte with exponent at least 5
(two seconds and more). -/
theorem C02_reencode_identity : ∀ me < 256, 5 ≤ me % 16 → relToMe (meToRel me) = some me := by decide +kernel

/-- For every byte with exponent at least 1 the re-encoded value never grows (bytes with exponent 0, which
all re-encode to 66 ms, are excluded), and loses at most one mantissa step plus one millisecond. -/
theorem C02_reencode_close : ∀ me < 256, 1 ≤ me % 16 →
    ∃ me', relToMe (meToRel me) = some me' ∧ meToRel me' ≤ meToRel me ∧
      16 * (meToRel me - meToRel me') ≤ meToRel me + 16 := by
  have h : ∀ me < 256, 1 ≤ me % 16 →
      (relToMe (meToRel me)).any (fun me' =>
         meToRel me' ≤ meToRel me ∧ 16 * (meToRel me - meToRel me') ≤ meToRel me + 16) = true := by
    decide +kernel
  intro me hm hb
  have h' := h me hm hb
  rw [Option.any_eq_true] at h'
  obtain ⟨x, hx, hp⟩ := h'
  exact ⟨x, hx, by simpa using hp⟩

/-- Exact stability ("re-encoding never changes the byte") is false below two seconds: 0x11 means 132.8 ms, is decoded
as 132 ms and re-encoded as 0x01. -/
theorem C02_reencode_not_identity : ∃ me < 256, 1 ≤ me % 16 ∧ relToMe (meToRel me) ≠ some me :=
  ⟨0x11, by decide, by decide, by decide⟩

end Verif.Mantissa
