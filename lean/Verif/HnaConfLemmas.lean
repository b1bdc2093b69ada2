import Verif.HnaConfModel
import Verif.IpcalcProps

/-!
# Lemmas on the network statements
-/

namespace Verif.HnaConf

open Verif.Ipcalc

/-! ### Specification -/

/-- the number a run of decimal digits stands for -/
def written (ds : List Nat) : Nat := ds.foldl (fun a d => a * 10 + d) 0

/-- no leading zero, and the number fits 32 bits -/
def PlainInt (ds : List Nat) : Prop := (ds = [0] ∨ ds.head? ≠ some 0) ∧ written ds < 2 ^ 32

/-- `n` bytes -/
def Bytes (n : Nat) (a : List Nat) : Prop := a.length = n ∧ ∀ b ∈ a, b < 256

/-- the statement is an HNA entry for this IP version -/
def isHna (v6 : Bool) : Stmt → Bool
  | .hna4Mask _ _ => !v6
  | .hna4Len _ _ => !v6
  | .hna6 _ _ => v6
  | _ => false

/-- the statement is an entry of the IPC block -/
def isIpc : Stmt → Bool
  | .ipcHost _ => true
  | .ipcMask _ _ => true
  | .ipcLen _ _ => true
  | _ => false

/-- the network a statement names: address and number of leading bits that count -/
def Names : Stmt → Net → Prop
  | .hna4Mask (some a) (some m), e => e.addr = a ∧ IsMask m e.len ∧ e.len ≤ 32
  | .hna4Len (some a) n, e => e.addr = a ∧ e.len = written n
  | .hna6 (some a) n, e => e.addr = a ∧ e.len = written n
  | .ipcHost (some a), e => e.addr = a ∧ e.len = 32
  | .ipcMask (some a) (some m), e => e.addr = a ∧ IsMask m e.len ∧ e.len ≤ 32
  | .ipcLen (some a) n, e => e.addr = a ∧ e.len = written n
  | _, _ => False

/-- addresses have the right size, integers are plain; no change of the IP version -/
def Plain : Stmt → Prop
  | .ipVersion _ => False
  | .hna4Mask a m => (∀ x, a = some x → Bytes 4 x) ∧ ∀ x, m = some x → Bytes 4 x
  | .hna4Len a n => (∀ x, a = some x → Bytes 4 x) ∧ PlainInt n
  | .hna6 a n => (∀ x, a = some x → Bytes 16 x) ∧ PlainInt n
  | .ipcHost a => ∀ x, a = some x → Bytes 4 x
  | .ipcMask a m => (∀ x, a = some x → Bytes 4 x) ∧ ∀ x, m = some x → Bytes 4 x
  | .ipcLen a n => (∀ x, a = some x → Bytes 4 x) ∧ PlainInt n

/-- netmasks are runs of ones followed by zeros -/
def ProperMask : Stmt → Prop
  | .hna4Mask _ (some m) => ∃ n, n ≤ 32 ∧ IsMask m n
  | .ipcMask _ (some m) => ∃ n, n ≤ 32 ∧ IsMask m n
  | _ => True

/-- a statement that ought to be taken: the address is one, the length is within the address, and (for
IPv4 HNA) the address has no bits outside the mask -/
def Good (v6 : Bool) : Stmt → Prop
  | .ipVersion _ => False
  | .hna4Mask a m => v6 = true ∨ ∃ x y, a = some x ∧ m = some y ∧ ∀ i < 32, bit x i = true → bit y i = true
  | .hna4Len a n => v6 = true ∨ ∃ x, a = some x ∧ written n ≤ 32 ∧ ∀ i, written n ≤ i → i < 32 → bit x i = false
  | .hna6 a n => v6 = false ∨ ∃ x, a = some x ∧ written n ≤ 128
  | .ipcHost a => ∃ x, a = some x
  | .ipcMask a m => (∃ x, a = some x) ∧ ∃ y, m = some y
  | .ipcLen a n => (∃ x, a = some x) ∧ written n ≤ if v6 then 128 else 32

/-! ### Integers -/

theorem decimal_eq (ds : List Nat) : ∀ acc, decimal acc ds = ds.foldl (fun a d => a * 10 + d) acc := by
  induction ds with
  | nil => intro acc; rfl
  | cons d ds ih => intro acc; rw [decimal, ih]; rfl

theorem integer_plain (ds : List Nat) (h : PlainInt ds) : integer ds = written ds := by
  obtain ⟨h1, h2⟩ := h
  have e : strtol0 ds = written ds := by
    cases ds with
    | nil => rfl
    | cons d ds =>
      rw [strtol0]
      by_cases hd : d = 0
      · rw [if_pos hd]
        rcases h1 with h1 | h1
        · cases h1; rfl
        · exact absurd (by rw [hd]; rfl) h1
      · rw [if_neg hd, decimal_eq]; rfl
  rw [integer, e]
  obtain ⟨w, hw⟩ : ∃ w, w = written ds := ⟨_, rfl⟩
  rw [← hw] at h2 ⊢
  omega

/-! ### Bits -/

theorem bit_cons' (b : Nat) (m : List Nat) (i : Nat) :
    bit (b :: m) i = if i < 8 then b.testBit (7 - i) else bit m (i - 8) := by
  unfold bit
  by_cases h : i < 8
  · rw [if_pos h]
    have h1 : i / 8 = 0 := by omega
    have h2 : i % 8 = i := by omega
    rw [h1, h2, Nat.testBit_eq_decide_div_mod_eq, Bool.beq_eq_decide_eq]; rfl
  · rw [if_neg h]
    have h1 : i / 8 = (i - 8) / 8 + 1 := by omega
    have h2 : i % 8 = (i - 8) % 8 := by omega
    rw [h1, h2]; rfl

theorem byte_host (x y : Nat) (hy : y < 256) :
    x &&& (255 - y) = 0 ↔ ∀ i < 8, x.testBit i = true → y.testBit i = true := by
  have e : 255 - y = 2 ^ 8 - (y + 1) := by omega
  constructor
  · intro h i hi hx'
    have := congrArg (fun z => Nat.testBit z i) h
    simp only [Nat.testBit_and, Nat.zero_testBit, hx', Bool.true_and] at this
    rw [e, Nat.testBit_two_pow_sub_succ (by omega)] at this
    simpa [hi] using this
  · intro h
    apply Nat.eq_of_testBit_eq
    intro i
    rw [Nat.testBit_and, Nat.zero_testBit, e, Nat.testBit_two_pow_sub_succ (by omega)]
    by_cases hi : i < 8
    · cases hb : x.testBit i with
      | false => rfl
      | true => simp [h i hi hb]
    · simp [hi]

theorem hostBits_spec (a : List Nat) : ∀ m : List Nat, a.length = m.length → (∀ b ∈ a, b < 256) → (∀ b ∈ m, b < 256) →
    (hostBits a m = false ↔ ∀ i, i < 8 * a.length → bit a i = true → bit m i = true) := by
  induction a with
  | nil => intro m _ _ _; simp [hostBits]
  | cons x a ih =>
    intro m hl ha hm
    cases m with
    | nil => simp at hl
    | cons y m =>
      have h1 := ih m (by simpa using hl) (fun b hb => ha b (by simp [hb])) (fun b hb => hm b (by simp [hb]))
      have h2 := byte_host x y (hm y (by simp))
      rw [hostBits, Bool.or_eq_false_iff, h1, decide_eq_false_iff_not, Decidable.not_not, h2]
      constructor
      · rintro ⟨g1, g2⟩ i hi hb
        rw [bit_cons'] at hb ⊢
        by_cases h8 : i < 8
        · rw [if_pos h8] at hb ⊢; exact g1 _ (by omega) hb
        · rw [if_neg h8] at hb ⊢; exact g2 _ (by simp at hi; omega) hb
      · intro g
        constructor
        · intro i hi hb
          have := g (7 - i) (by simp; omega)
          rw [bit_cons', bit_cons', if_pos (by omega), if_pos (by omega), show 7 - (7 - i) = i by omega] at this
          exact this hb
        · intro i hi hb
          have := g (i + 8) (by simp; omega)
          rw [bit_cons', bit_cons', if_neg (by omega), if_neg (by omega), show i + 8 - 8 = i by omega] at this
          exact this hb

theorem len_spec (a : List Nat) (n : Nat) (ha : Bytes 4 a) (hn : n ≤ 32) :
    hostBits a (prefixToNetmask [0, 0, 0, 0] n).2 = false ↔ ∀ i, n ≤ i → i < 32 → bit a i = false := by
  obtain ⟨m, e, hl, hm, -⟩ := C10_prefix_roundtrip [0, 0, 0, 0] n (by simp) (by simp) (by simpa using hn)
  rw [e]
  have h4 : a.length = 4 := ha.1
  have hl4 : m.length = 4 := hl
  rw [hostBits_spec a m (by omega) ha.2 hm.1]
  constructor
  · intro h i h1 h2
    cases hb : bit a i with
    | false => rfl
    | true =>
      have := h i (by omega) hb
      rw [hm.2 i (by omega)] at this
      have := of_decide_eq_true this
      omega
  · intro h i hi hb
    rw [hm.2 i (by omega), decide_eq_true_eq]
    rcases Nat.lt_or_ge i n with h1 | h1
    · exact h1
    · rw [h i h1 (by omega)] at hb; cases hb

theorem toPrefix_of (m : List Nat) (n : Nat) (hb : Bytes 4 m) (hn : n ≤ 32) (hm : IsMask m n) : toPrefix m = n := by
  have h4 : m.length = 4 := hb.1
  exact (C10_netmask_roundtrip m m n (by intro e; rw [e] at h4; simp at h4) (by omega) rfl (by omega) hm).1

/-! ### One statement -/

theorem addHna_hna (c : Conf) (a : List Nat) (n : Nat) : (addHna c a n).hna = ⟨a, n % 256⟩ :: c.hna := rfl
theorem addHna_ipc (c : Conf) (a : List Nat) (n : Nat) : (addHna c a n).ipc = c.ipc := rfl
theorem addHna_v6 (c : Conf) (a : List Nat) (n : Nat) : (addHna c a n).v6 = c.v6 := rfl
theorem addIpc_hna (c : Conf) (a : List Nat) (n : Nat) : (addIpc c a n).hna = c.hna := rfl
theorem addIpc_ipc (c : Conf) (a : List Nat) (n : Nat) : (addIpc c a n).ipc = ⟨a, n % 256⟩ :: c.ipc := rfl
theorem addIpc_v6 (c : Conf) (a : List Nat) (n : Nat) : (addIpc c a n).v6 = c.v6 := rfl

/-- the flags are those of the list -/
def Flags (c : Conf) : Prop := updateGw c = c

theorem updateGw_idem (c : Conf) : updateGw (updateGw c) = updateGw c := rfl

/-- what a taken statement does to the HNA list -/
def HnaStep (v6 : Bool) (s : Stmt) (old new : List Net) : Prop :=
  if isHna v6 s = true then
    ∃ e, Names s e ∧ new = e :: old ∧ (v6 = false → e.addr.length = 4 ∧ e.len ≤ 32 ∧ ∀ i, e.len ≤ i → i < 32 → bit e.addr i = false)
  else new = old

/-- what a taken statement does to the IPC list of an IPv4 daemon -/
def IpcStep (s : Stmt) (old new : List Net) : Prop :=
  if isIpc s = true then ∃ e, Names s e ∧ new = e :: old ∧ e.len ≤ 32 else new = old

theorem stmt_step (stack : List Nat) (c c' : Conf) (s : Stmt) (hp : Plain s) (hm : ProperMask s)
    (h : stmt stack c s = some c') :
    c'.v6 = c.v6 ∧ HnaStep c.v6 s c.hna c'.hna ∧ (c.v6 = false → IpcStep s c.ipc c'.ipc) ∧ (Flags c → Flags c') := by
  cases s with
  | ipVersion n => exact hp.elim
  | hna4Mask a m =>
    have h : hna4Mask c a m = some c' := h
    unfold hna4Mask at h
    unfold HnaStep IpcStep
    cases hv : c.v6 with
    | true =>
      rw [hv, if_pos rfl] at h; cases h
      exact ⟨hv, (by simp [isHna]), fun e => by simp at e, id⟩
    | false =>
      rw [hv, if_neg (by simp)] at h
      cases a with
      | none => cases h
      | some a =>
        cases m with
        | none => cases h
        | some m =>
          simp only [] at h
          by_cases hh : hostBits a m = true
          · rw [if_pos hh] at h; cases h
          · rw [if_neg hh] at h
            cases h
            obtain ⟨n, hn, hmm⟩ := hm
            have hb := hp.2 m rfl
            have ha := hp.1 a rfl
            have e := toPrefix_of m n hb hn hmm
            have h4 : a.length = 4 := ha.1
            have hm4 : m.length = 4 := hb.1
            refine ⟨hv, ?_, fun _ => by simp [addHna_ipc, isIpc], fun _ => rfl⟩
            rw [if_pos (show isHna false _ = true from rfl)]
            refine ⟨⟨a, n⟩, ⟨rfl, hmm, hn⟩, ?_, fun _ => ⟨h4, hn, ?_⟩⟩
            · rw [addHna_hna, e, show n % 256 = n by omega]
            · intro i h1 h2
              have hs := (hostBits_spec a m (by omega) ha.2 hb.2).1 (by simpa using hh) i (by omega)
              cases hbit : bit a i with
              | false => rfl
              | true =>
                have := hs hbit
                rw [hmm.2 i (by omega)] at this
                have := of_decide_eq_true this
                simp only at h1
                omega
  | hna4Len a n =>
    have h : hna4Len c a n = some c' := h
    unfold hna4Len at h
    unfold HnaStep IpcStep
    cases hv : c.v6 with
    | true =>
      rw [hv, if_pos rfl] at h; cases h
      exact ⟨hv, (by simp [isHna]), fun e => by simp at e, id⟩
    | false =>
      rw [hv, if_neg (by simp)] at h
      cases a with
      | none => cases h
      | some a =>
        have ha := hp.1 a rfl
        have e := integer_plain n hp.2
        have hx : maxplen c = 32 := by simp [maxplen, hv]
        simp only [e, hx] at h
        by_cases hl : written n > 32
        · rw [if_pos hl] at h; cases h
        · rw [if_neg hl] at h
          by_cases hh : hostBits a (prefixToNetmask [0, 0, 0, 0] (written n)).2 = true
          · rw [if_pos hh] at h; cases h
          · rw [if_neg hh] at h
            cases h
            have h4 : a.length = 4 := ha.1
            refine ⟨hv, ?_, fun _ => by simp [addHna_ipc, isIpc], fun _ => rfl⟩
            rw [if_pos (show isHna false _ = true from rfl)]
            refine ⟨⟨a, written n⟩, ⟨rfl, rfl⟩, ?_, fun _ => ⟨h4, (by simp only; omega), ?_⟩⟩
            · rw [addHna_hna, show written n % 256 = written n by omega]
            · exact (len_spec a (written n) ha (by omega)).1 (by simpa using hh)
  | hna6 a n =>
    have h : hna6 c a n = some c' := h
    unfold hna6 at h
    unfold HnaStep IpcStep
    cases hv : c.v6 with
    | false =>
      rw [hv, if_neg (by simp)] at h; cases h
      exact ⟨hv, (by simp [isHna]), fun _ => by simp [isIpc], id⟩
    | true =>
      rw [hv, if_pos rfl] at h
      cases a with
      | none => cases h
      | some a =>
        have e := integer_plain n hp.2
        simp only [e] at h
        by_cases hl : written n > 128
        · rw [if_pos hl] at h; cases h
        · rw [if_neg hl] at h
          cases h
          refine ⟨hv, ?_, fun _ => by simp [addHna_ipc, isIpc], fun _ => rfl⟩
          rw [if_pos (show isHna true _ = true from rfl)]
          refine ⟨⟨a, written n⟩, ⟨rfl, rfl⟩, ?_, fun e => by simp at e⟩
          rw [addHna_hna, show written n % 256 = written n by omega]
  | ipcHost a =>
    have h : ipcHost c a = some c' := h
    unfold ipcHost at h
    cases a with
    | none => cases h
    | some a =>
      cases h
      refine ⟨rfl, by simp [HnaStep, isHna, addIpc_hna], ?_, fun _ => rfl⟩
      intro hv
      unfold IpcStep
      rw [if_pos (show isIpc _ = true from rfl)]
      refine ⟨⟨a, 32⟩, ⟨rfl, rfl⟩, ?_, Nat.le_refl _⟩
      rw [addIpc_ipc]; simp [maxplen, hv]
  | ipcMask a m =>
    have h : ipcMask c a m stack = some c' := h
    unfold ipcMask at h
    cases a with
    | none => cases h
    | some a =>
      cases m with
      | none => cases h
      | some m =>
        cases h
        refine ⟨rfl, by simp [HnaStep, isHna, addIpc_hna], ?_, fun _ => rfl⟩
        intro hv
        obtain ⟨n, hn, hmm⟩ := hm
        have e := toPrefix_of m n (hp.2 m rfl) hn hmm
        unfold IpcStep
        rw [if_pos (show isIpc _ = true from rfl)]
        refine ⟨⟨a, n⟩, ⟨rfl, hmm, hn⟩, ?_, hn⟩
        rw [addIpc_ipc, if_neg (by simp [hv]), e, show n % 256 = n by omega]
  | ipcLen a n =>
    have h : ipcLen c a n = some c' := h
    unfold ipcLen at h
    cases a with
    | none => cases h
    | some a =>
      have e := integer_plain n hp.2
      simp only [e] at h
      by_cases hl : written n > maxplen c
      · rw [if_pos hl] at h; cases h
      · rw [if_neg hl] at h
        cases h
        refine ⟨rfl, by simp [HnaStep, isHna, addIpc_hna], ?_, fun _ => rfl⟩
        intro hv
        have hx : maxplen c = 32 := by simp [maxplen, hv]
        rw [hx] at hl
        unfold IpcStep
        rw [if_pos (show isIpc _ = true from rfl)]
        refine ⟨⟨a, written n⟩, ⟨rfl, rfl⟩, ?_, (by simp only; omega)⟩
        rw [addIpc_ipc, show written n % 256 = written n by omega]

/-- a statement is taken exactly if it is good -/
theorem stmt_good (stack : List Nat) (c : Conf) (s : Stmt) (hp : Plain s) :
    (∃ c', stmt stack c s = some c') ↔ Good c.v6 s := by
  cases s with
  | ipVersion n => exact hp.elim
  | hna4Mask a m =>
    show (∃ c', hna4Mask c a m = some c') ↔ _
    unfold hna4Mask Good
    cases hv : c.v6 with
    | true => simp
    | false =>
      cases a with
      | none => simp
      | some a =>
        cases m with
        | none => simp
        | some m =>
          have ha := hp.1 a rfl
          have hb := hp.2 m rfl
          have hs := hostBits_spec a m (by rw [ha.1, hb.1]) ha.2 hb.2
          rw [ha.1] at hs
          simp; exact hs
  | hna4Len a n =>
    show (∃ c', hna4Len c a n = some c') ↔ _
    unfold hna4Len Good
    cases hv : c.v6 with
    | true => simp
    | false =>
      have hx : maxplen c = 32 := by simp [maxplen, hv]
      cases a with
      | none => simp
      | some a =>
        simp only [integer_plain n hp.2, hx]
        by_cases hl : written n > 32
        · simp [hl]; intro h; omega
        · have hs := len_spec a (written n) (hp.1 a rfl) (by omega)
          cases hh : hostBits a (prefixToNetmask [0, 0, 0, 0] (written n)).2 with
          | false => simp [hl]; exact ⟨by omega, hs.1 hh⟩
          | true =>
            rw [hh] at hs
            simp only [Bool.true_eq_false, false_iff] at hs
            simp [hl]
            intro _
            apply Classical.byContradiction
            intro hn
            refine hs fun i h1 h2 => ?_
            cases hbit : bit a i with
            | false => rfl
            | true => exact absurd ⟨i, h1, h2, hbit⟩ hn
  | hna6 a n =>
    show (∃ c', hna6 c a n = some c') ↔ _
    unfold hna6 Good
    cases hv : c.v6 with
    | false => simp
    | true =>
      cases a with
      | none => simp
      | some a =>
        simp only [integer_plain n hp.2]
        by_cases hl : written n > 128
        · simp [hl]
        · simp [hl]; omega
  | ipcHost a =>
    show (∃ c', ipcHost c a = some c') ↔ _
    unfold ipcHost Good
    cases a <;> simp
  | ipcMask a m =>
    show (∃ c', ipcMask c a m stack = some c') ↔ _
    unfold ipcMask Good
    cases a <;> cases m <;> simp
  | ipcLen a n =>
    show (∃ c', ipcLen c a n = some c') ↔ _
    unfold ipcLen Good maxplen
    cases a with
    | none => simp
    | some a =>
      simp only [integer_plain n hp.2]
      by_cases hl : written n > (if c.v6 = true then 128 else 32)
      · simp [hl]
      · rw [if_neg hl]; simp; omega

theorem stmt_v6 (stack : List Nat) (c c' : Conf) (s : Stmt) (hp : Plain s) (h : stmt stack c s = some c') :
    c'.v6 = c.v6 := by
  cases s with
  | ipVersion n => exact hp.elim
  | hna4Mask a m =>
    have h : hna4Mask c a m = some c' := h
    unfold hna4Mask at h
    (repeat' split at h) <;> cases h <;> rfl
  | hna4Len a n =>
    have h : hna4Len c a n = some c' := h
    unfold hna4Len at h
    (repeat' split at h) <;> cases h <;> rfl
  | hna6 a n =>
    have h : hna6 c a n = some c' := h
    unfold hna6 at h
    (repeat' split at h) <;> cases h <;> rfl
  | ipcHost a =>
    have h : ipcHost c a = some c' := h
    unfold ipcHost at h
    (repeat' split at h) <;> cases h <;> rfl
  | ipcMask a m =>
    have h : ipcMask c a m stack = some c' := h
    unfold ipcMask at h
    (repeat' split at h) <;> cases h <;> rfl
  | ipcLen a n =>
    have h : ipcLen c a n = some c' := h
    unfold ipcLen at h
    (repeat' split at h) <;> cases h <;> rfl

/-- a statement names at most one network -/
theorem names_unique (s : Stmt) (e e' : Net) (hp : Plain s) (h : Names s e) (h' : Names s e') : e = e' := by
  obtain ⟨a1, n1⟩ := e
  obtain ⟨a2, n2⟩ := e'
  cases s with
  | ipVersion n => exact h.elim
  | hna4Mask a m =>
    cases a with
    | none => exact h.elim
    | some a =>
      cases m with
      | none => exact h.elim
      | some m =>
        obtain ⟨rfl, h2, h3⟩ := h
        obtain ⟨g1, g2, g3⟩ := h'
        have k1 := toPrefix_of m n1 (hp.2 m rfl) h3 h2
        have k2 := toPrefix_of m n2 (hp.2 m rfl) g3 g2
        simp only at g1
        rw [g1, ← k1, ← k2]
  | ipcMask a m =>
    cases a with
    | none => exact h.elim
    | some a =>
      cases m with
      | none => exact h.elim
      | some m =>
        obtain ⟨rfl, h2, h3⟩ := h
        obtain ⟨g1, g2, g3⟩ := h'
        have k1 := toPrefix_of m n1 (hp.2 m rfl) h3 h2
        have k2 := toPrefix_of m n2 (hp.2 m rfl) g3 g2
        simp only at g1
        rw [g1, ← k1, ← k2]
  | hna4Len a n =>
    cases a with
    | none => exact h.elim
    | some a => obtain ⟨rfl, rfl⟩ := h; obtain ⟨rfl, rfl⟩ := h'; rfl
  | hna6 a n =>
    cases a with
    | none => exact h.elim
    | some a => obtain ⟨rfl, rfl⟩ := h; obtain ⟨rfl, rfl⟩ := h'; rfl
  | ipcHost a =>
    cases a with
    | none => exact h.elim
    | some a => obtain ⟨rfl, rfl⟩ := h; obtain ⟨rfl, rfl⟩ := h'; rfl
  | ipcLen a n =>
    cases a with
    | none => exact h.elim
    | some a => obtain ⟨rfl, rfl⟩ := h; obtain ⟨rfl, rfl⟩ := h'; rfl

theorem names_bytes (s : Stmt) (e : Net) (hp : Plain s) (h : Names s e) : ∀ b ∈ e.addr, b < 256 := by
  cases s with
  | ipVersion n => exact h.elim
  | hna4Mask a m =>
    cases a with
    | none => exact h.elim
    | some a =>
      cases m with
      | none => exact h.elim
      | some m => rw [h.1]; exact (hp.1 a rfl).2
  | ipcMask a m =>
    cases a with
    | none => exact h.elim
    | some a =>
      cases m with
      | none => exact h.elim
      | some m => rw [h.1]; exact (hp.1 a rfl).2
  | hna4Len a n =>
    cases a with
    | none => exact h.elim
    | some a => rw [h.1]; exact (hp.1 a rfl).2
  | hna6 a n =>
    cases a with
    | none => exact h.elim
    | some a => rw [h.1]; exact (hp.1 a rfl).2
  | ipcHost a =>
    cases a with
    | none => exact h.elim
    | some a => rw [h.1]; exact (hp a rfl).2
  | ipcLen a n =>
    cases a with
    | none => exact h.elim
    | some a => rw [h.1]; exact (hp.1 a rfl).2

theorem zero_of_bits (a : List Nat) (hb : ∀ b ∈ a, b < 256) (h : ∀ i, i < 8 * a.length → bit a i = false) :
    ∀ b ∈ a, b = 0 := by
  induction a with
  | nil => intro b hb; simp at hb
  | cons x a ih =>
    intro b hmem
    rcases List.mem_cons.1 hmem with rfl | hmem
    · apply Nat.eq_of_testBit_eq
      intro i
      rw [Nat.zero_testBit]
      by_cases hi : i < 8
      · have := h (7 - i) (by simp; omega)
        rw [bit_cons', if_pos (by omega), show 7 - (7 - i) = i by omega] at this
        exact this
      · have hp : 2 ^ 8 ≤ 2 ^ i := Nat.pow_le_pow_right (by omega) (by omega)
        exact Nat.testBit_lt_two_pow (Nat.lt_of_lt_of_le (hb b (by simp)) hp)
    · refine ih (fun y hy => hb y (by simp [hy])) (fun i hi => ?_) b hmem
      have := h (i + 8) (by simp; omega)
      rw [bit_cons', if_neg (by omega), show i + 8 - 8 = i by omega] at this
      exact this

theorem word_zero (a : List Nat) (hl : a.length = 4) (hb : ∀ b ∈ a, b < 256) (h : ∀ i, i < 32 → bit a i = false) :
    word a = 0#32 := by
  have hz := zero_of_bits a hb (by rw [hl]; exact h)
  match a, hl with
  | [p, q, r, s], _ =>
    have h1 := hz p (by simp)
    have h2 := hz q (by simp)
    have h3 := hz r (by simp)
    have h4 := hz s (by simp)
    subst h1 h2 h3 h4
    rfl

end Verif.HnaConf
