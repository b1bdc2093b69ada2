import Verif.LqModel

/-!
# C36: the packet-loss window of etx_ff, and C50: smoothing
-/

namespace Verif.Lq

/-- fewer than 256 packets between two ticks; `n` packets have been counted since the last one -/
def Calm : Nat → List Op → Prop
  | _, [] => True
  | n, .packet _ :: ops => n < 255 ∧ Calm (n + 1) ops
  | n, .lost :: ops => Calm n ops
  | _, .tick mult _ :: ops => mult ≤ 65536 ∧ Calm 0 ops

/-- the state after a history of a new link -/
def after (ops : List Op) : Window := ops.foldl Window.step Window.fresh

/-- packets counted as received / expected in the first `k` slots -/
def receivedIn (k : Nat) (w : Window) : Nat := ((w.slots.take k).map Prod.fst).sum
def expectedIn (k : Nat) (w : Window) : Nat := ((w.slots.take k).map Prod.snd).sum

private structure Inv (n : Nat) (w : Window) : Prop where
  len : w.slots.length = 32
  act : w.activePtr < 32
  win : w.windowSize ≤ 32
  le : ∀ s ∈ w.slots, s.1 ≤ s.2 ∧ s.2 ≤ 65283
  cur : ∀ s, w.slots[w.activePtr]? = some s → s.2 ≤ 3 + 256 * n
  val : w.valueLq ≤ 255

private theorem seqDiff_bounds (a b : Nat) (ha : a < 65536) (h : a ≠ b) : 1 ≤ seqDiff a b ∧ seqDiff a b ≤ 256 := by
  unfold seqDiff
  simp only
  by_cases h1 : a > b
  · rw [if_pos h1]; split <;> omega
  · rw [if_neg h1]; split <;> omega

private theorem getD_get {l : List (Nat × Nat)} {i : Nat} (h : i < l.length) :
    ∃ s, l[i]? = some s ∧ l.getD i (0, 0) = s ∧ s ∈ l := by
  refine ⟨l[i], List.getElem?_eq_getElem h, ?_, List.getElem_mem h⟩
  rw [List.getD_eq_getElem?_getD, List.getElem?_eq_getElem h]; rfl

private theorem sums_le (l : List (Nat × Nat)) (h : ∀ s ∈ l, s.1 ≤ s.2) :
    (l.map Prod.fst).sum ≤ (l.map Prod.snd).sum := by
  induction l with
  | nil => exact Nat.le_refl _
  | cons a l ih =>
    simp only [List.map_cons, List.sum_cons]
    have := ih fun s hs => h s (List.mem_cons_of_mem _ hs)
    have := h a List.mem_cons_self
    omega

private theorem corrected_le (m h r : Nat) : corrected m h r ≤ r := by
  unfold corrected
  simp only
  split
  · split
    · omega
    · have : r * (32 - m * h % 4294967296 / 1000) ≤ r * 32 := Nat.mul_le_mul_left _ (by omega)
      omega
  · omega

private theorem ratio_le (mult r t : Nat) (hm : mult ≤ 65536) : ratio mult r t * t ≤ 255 * r := by
  unfold ratio
  have hx : mult * 1024 / 65536 ≤ 1024 := by omega
  obtain ⟨x, hx'⟩ : ∃ x, mult * 1024 / 65536 = x := ⟨_, rfl⟩
  rw [hx'] at hx ⊢
  have h1 : x * r / t * t ≤ x * r := Nat.div_mul_le_self _ _
  have h2 : x * r ≤ 1024 * r := Nat.mul_le_mul_right _ hx
  generalize x * r / t = y at h1
  have h3 : (y * 255 / 1024) * 1024 ≤ y * 255 := Nat.div_mul_le_self _ _
  generalize y * 255 / 1024 = z at h3
  have h4 : z * 1024 * t ≤ y * 255 * t := Nat.mul_le_mul_right _ h3
  have h5 : y * 255 * t = 255 * (y * t) := by rw [Nat.mul_comm y 255, Nat.mul_assoc]
  have h6 : z * 1024 * t = 1024 * (z * t) := by rw [Nat.mul_comm z 1024, Nat.mul_assoc]
  omega

private theorem ratio_ge (r t : Nat) (ht : 0 < t) : 1024 * 255 * r < 1024 * ((ratio 65536 r t + 1) * t) + 255 * t := by
  unfold ratio
  rw [show 65536 * 1024 / 65536 = 1024 from rfl]
  have h1 : 1024 * r < (1024 * r / t + 1) * t := by
    rw [Nat.mul_comm _ t]; exact Nat.lt_mul_div_succ _ ht
  generalize 1024 * r / t = y at h1
  have h2 : y * 255 < (y * 255 / 1024 + 1) * 1024 := by omega
  generalize y * 255 / 1024 = z at h2
  have h3 : (y * 255 + 1) * t ≤ (z + 1) * 1024 * t := Nat.mul_le_mul_right _ h2
  have h4 : (y * 255 + 1) * t = 255 * (y * t) + t := by
    rw [Nat.add_mul, Nat.mul_comm y 255, Nat.mul_assoc, Nat.one_mul]
  have h5 : (z + 1) * 1024 * t = 1024 * ((z + 1) * t) := by
    rw [Nat.mul_comm (z + 1) 1024, Nat.mul_assoc]
  have h6 : (y + 1) * t = y * t + t := by rw [Nat.add_mul, Nat.one_mul]
  omega

private theorem measure_eq (w : Window) (mult hi : Nat) : w.measure mult hi =
    if expectedIn (grown w.windowSize) w = 0 then 0
    else ratio mult (corrected w.missed hi (receivedIn (grown w.windowSize) w)) (expectedIn (grown w.windowSize) w) := rfl

private theorem measure_spec (w : Window) (mult hi : Nat) (hm : mult ≤ 65536) (hle : ∀ s ∈ w.slots, s.1 ≤ s.2) :
    w.measure mult hi ≤ 255 ∧
    w.measure mult hi * expectedIn (grown w.windowSize) w ≤ 255 * receivedIn (grown w.windowSize) w := by
  have hs : receivedIn (grown w.windowSize) w ≤ expectedIn (grown w.windowSize) w :=
    sums_le _ fun s h => hle s (List.mem_of_mem_take h)
  have hmain : w.measure mult hi * expectedIn (grown w.windowSize) w ≤ 255 * receivedIn (grown w.windowSize) w := by
    rw [measure_eq]
    split
    · omega
    · exact Nat.le_trans (ratio_le mult _ _ hm) (Nat.mul_le_mul_left _ (corrected_le _ _ _))
  refine ⟨?_, hmain⟩
  by_cases h0 : expectedIn (grown w.windowSize) w = 0
  · have : w.measure mult hi = 0 := by
      rw [measure_eq, if_pos h0]
    omega
  · have h1 : w.measure mult hi * expectedIn (grown w.windowSize) w ≤ 255 * expectedIn (grown w.windowSize) w :=
      Nat.le_trans hmain (Nat.mul_le_mul_left _ hs)
    exact Nat.le_of_mul_le_mul_right h1 (by omega)

private theorem inv_packet {n : Nat} {w : Window} (hi : Inv n w) (hn : n < 255) (seq : Nat)
    (hl : w.lastSeq < 65536) : Inv (n + 1) (w.packet seq) := by
  unfold Window.packet
  split
  · exact ⟨hi.len, hi.act, hi.win, hi.le, fun s h => by have := hi.cur s h; omega, hi.val⟩
  · rename_i hne
    obtain ⟨s, h1, h2, h3⟩ := getD_get (l := w.slots) (i := w.activePtr) (by rw [hi.len]; exact hi.act)
    have hd := seqDiff_bounds w.lastSeq seq hl hne
    have hc := hi.cur s h1
    have hle := hi.le s h3
    simp only [h2]
    generalize seqDiff w.lastSeq seq = d at hd
    have e1 : (s.1 + 1) % 65536 = s.1 + 1 := Nat.mod_eq_of_lt (by omega)
    have e2 : (s.2 + d) % 65536 = s.2 + d := Nat.mod_eq_of_lt (by omega)
    rw [e1, e2]
    refine ⟨by simp [hi.len], hi.act, hi.win, ?_, ?_, hi.val⟩
    · intro t ht
      rcases List.mem_or_eq_of_mem_set ht with h | h
      · exact hi.le t h
      · subst h; simp only; omega
    · intro t ht
      simp only [List.getElem?_set_self (show w.activePtr < w.slots.length by rw [hi.len]; exact hi.act),
        Option.some.injEq] at ht
      subst ht
      simp only
      omega

private theorem inv_tick {n : Nat} {w : Window} (h : Inv n w) (mult hi : Nat) (hm : mult ≤ 65536) :
    Inv 0 (w.tick mult hi) := by
  have hv := (measure_spec w mult hi hm fun s hs => (h.le s hs).1).1
  unfold Window.tick
  simp only
  have hp : (w.activePtr + 1) % 32 < 32 := Nat.mod_lt _ (by omega)
  refine ⟨by simp [h.len], hp, ?_, ?_, ?_, ?_⟩
  · unfold grown
    have := h.win
    simp only
    split <;> omega
  · intro t ht
    rcases List.mem_or_eq_of_mem_set ht with h' | h'
    · exact h.le t h'
    · subst h'; simp
  · intro t ht
    simp only [List.getElem?_set_self (show (w.activePtr + 1) % 32 < w.slots.length by rw [h.len]; exact hp),
      Option.some.injEq] at ht
    subst ht
    simp
  · simp only
    omega

/-- the sequence number of a packet is a 16-bit number -/
def Op.seqOk : Op → Prop
  | .packet seq => seq < 65536
  | _ => True

private theorem inv_run : ∀ (ops : List Op) (n : Nat) (w : Window), Inv n w → w.lastSeq < 65536 → n ≤ 255 →
    Calm n ops → (∀ o ∈ ops, o.seqOk) → ∃ n' ≤ 255, Inv n' (ops.foldl Window.step w) := by
  intro ops
  induction ops with
  | nil => intro n w hi _ hn _ _; exact ⟨n, hn, hi⟩
  | cons o ops ih =>
    intro n w hi hl hn hc hs
    rw [List.foldl_cons]
    have hs' : ∀ o ∈ ops, o.seqOk := fun o h => hs o (List.mem_cons_of_mem _ h)
    cases o with
    | packet seq =>
      have hq : seq < 65536 := hs _ List.mem_cons_self
      refine ih (n + 1) _ (inv_packet hi hc.1 seq hl) ?_ (by have := hc.1; omega) hc.2 hs'
      show (w.packet seq).lastSeq < 65536
      unfold Window.packet
      split
      · exact hl
      · exact hq
    | lost => exact ih n _ ⟨hi.len, hi.act, hi.win, hi.le, hi.cur, hi.val⟩ hl hn hc hs'
    | tick mult h => exact ih 0 _ (inv_tick hi mult h hc.1) hl (by omega) hc.2 hs'

private theorem inv_fresh : Inv 0 Window.fresh := by
  refine ⟨by decide, by decide, by decide, ?_, ?_, by decide⟩
  · intro s hs
    rw [List.eq_of_mem_replicate (show s ∈ List.replicate 32 (0, 3) from hs)]
    decide
  · intro s hs
    have : Window.fresh.slots[Window.fresh.activePtr]? = some (0, 3) := by decide
    rw [this] at hs
    cases hs
    decide

/-- **C36, partial.**  For every history of packets, lost HELLOs and ticks with fewer than 256 packets per tick and a
loss multiplier of at most 1.0: no slot counts more packets as received than expected, the quality computed by the
next tick is at most 255 before it is stored in a byte, and it is at most 255 times the ratio of received to expected
packets; without a loss multiplier and missing HELLOs it is that ratio up to rounding.
The restriction to fewer than 256 packets per tick is necessary, see `C36_counter_wraps`. -/
theorem C36_window_partial (ops : List Op) (hc : Calm 0 ops) (hs : ∀ o ∈ ops, o.seqOk) (mult helloint : Nat)
    (hm : mult ≤ 65536) :
    (∀ s ∈ (after ops).slots, s.1 ≤ s.2) ∧ (after ops).valueLq ≤ 255 ∧
    (after ops).measure mult helloint ≤ 255 ∧
    ((after ops).tick mult helloint).valueLq = (after ops).measure mult helloint ∧
    (after ops).measure mult helloint * expectedIn (min 32 ((after ops).windowSize + 1)) (after ops) ≤
      255 * receivedIn (min 32 ((after ops).windowSize + 1)) (after ops) ∧
    (mult = 65536 → (after ops).missed ≤ 1 → 0 < expectedIn (min 32 ((after ops).windowSize + 1)) (after ops) →
      1024 * 255 * receivedIn (min 32 ((after ops).windowSize + 1)) (after ops) <
        1024 * (((after ops).measure mult helloint + 1) * expectedIn (min 32 ((after ops).windowSize + 1)) (after ops)) +
          255 * expectedIn (min 32 ((after ops).windowSize + 1)) (after ops)) := by
  obtain ⟨n, _, hi⟩ := inv_run ops 0 Window.fresh inv_fresh (by decide) (by omega) hc hs
  change Inv n (after ops) at hi
  generalize after ops = w at hi
  have hle : ∀ s ∈ w.slots, s.1 ≤ s.2 := fun s h => (hi.le s h).1
  obtain ⟨h1, h2⟩ := measure_spec w mult helloint hm hle
  have hg : grown w.windowSize = min 32 (w.windowSize + 1) := by
    unfold grown
    have := hi.win
    split <;> omega
  rw [← hg]
  refine ⟨hle, hi.val, h1, ?_, h2, ?_⟩
  · show w.measure mult helloint % 256 = _
    omega
  · intro hm1 hmi h0
    subst hm1
    have : w.measure 65536 helloint = ratio 65536 (receivedIn (grown w.windowSize) w) (expectedIn (grown w.windowSize) w) := by
      rw [measure_eq, if_neg (by omega)]
      unfold corrected
      rw [if_neg (by omega)]
    rw [this]
    exact ratio_ge _ _ h0

/-- a history that meets the hypotheses: 5 ticks, one packet lost in the middle -/
private def demo : List Op :=
  [.packet 1000, .packet 1001, .tick 65536 2000, .packet 1002, .tick 65536 2000, .packet 1004, .tick 65536 2000,
   .packet 1005, .tick 65536 2000, .packet 1006, .tick 65536 2000]

example : Calm 0 demo ∧ (∀ o ∈ demo, o.seqOk) := by
  refine ⟨by simp [demo, Calm], ?_⟩
  simp [demo, Op.seqOk]

example : receivedIn 10 (after demo) = 6 ∧ expectedIn 10 (after demo) = 22 ∧ (after demo).valueLq = 69 := by
  decide +kernel

/-- the packets of `C36_counter_wraps` -/
def burst : List Op := (List.range 256).map fun i => Op.packet ((256 * (i + 1)) % 65536)

/-- **C36, negation without the rate limit**: 256 packets in one second, each 256 ahead of the one before, wrap the
16-bit counter of expected packets: 256 packets count as received where 3 are expected, the quality computed is 4351,
and what is stored in the byte is 255, a perfect link, although 255 of every 256 packets were lost. -/
theorem C36_counter_wraps :
    (∀ o ∈ burst, o.seqOk) ∧ (after burst).slots[0]? = some (256, 3) ∧ (after burst).measure 65536 2000 = 4351 ∧
      ((after burst).tick 65536 2000).valueLq = 255 := by
  refine ⟨?_, by decide +kernel, by decide +kernel, by decide +kernel⟩
  intro o ho
  simp only [burst, List.mem_map] at ho
  obtain ⟨i, _, rfl⟩ := ho
  exact Nat.mod_lt _ (by omega)

/-! ## Lossless reception -/

/-- every packet has the sequence number after that of the packet before -/
def InOrder : Nat → List Op → Prop
  | _, [] => True
  | last, .packet seq :: ops => seq = (last + 1) % 65536 ∧ InOrder seq ops
  | last, .lost :: ops => InOrder last ops
  | last, .tick _ _ :: ops => InOrder last ops

/-- the number of ticks in a history -/
def ticks : List Op → Nat
  | [] => 0
  | .tick _ _ :: ops => ticks ops + 1
  | _ :: ops => ticks ops

/-- the `k` most recent slots have no loss -/
private def Clean (k : Nat) (w : Window) : Prop :=
  w.slots.length = 32 ∧ w.activePtr < 32 ∧ w.lastSeq < 65536 ∧
  ∀ j < k, j < 32 → ∀ s, w.slots[(w.activePtr + 32 - j) % 32]? = some s → s.1 = s.2

private theorem clean_packet {k : Nat} {w : Window} (h : Clean k w) (seq : Nat) (hs : seq = (w.lastSeq + 1) % 65536) :
    Clean k (w.packet seq) ∧ (w.packet seq).lastSeq = seq := by
  obtain ⟨h1, h2, h3, h4⟩ := h
  have hne : w.lastSeq ≠ seq := by omega
  have hd : seqDiff w.lastSeq seq = 1 := by
    unfold seqDiff
    simp only
    by_cases h : w.lastSeq > seq
    · rw [if_pos h]; split <;> omega
    · rw [if_neg h]; split <;> omega
  obtain ⟨s, g1, g2, g3⟩ := getD_get (l := w.slots) (i := w.activePtr) (by omega)
  unfold Window.packet
  rw [if_neg hne]
  simp only [g2, hd]
  refine ⟨⟨by simp [h1], h2, by simp only; omega, ?_⟩, trivial⟩
  intro j hj hj32 t ht
  simp only at ht
  by_cases hi : (w.activePtr + 32 - j) % 32 = w.activePtr
  · rw [hi, List.getElem?_set_self (by omega)] at ht
    have := h4 j hj hj32 s (by rw [hi]; exact g1)
    cases ht
    simp only
    omega
  · rw [List.getElem?_set_ne (by omega)] at ht
    exact h4 j hj hj32 t ht

private theorem clean_tick {k : Nat} {w : Window} (h : Clean k w) (mult hi : Nat) : Clean (k + 1) (w.tick mult hi) := by
  obtain ⟨h1, h2, h3, h4⟩ := h
  unfold Window.tick
  refine ⟨by simp [h1], Nat.mod_lt _ (by omega), h3, ?_⟩
  intro j hj hj32 t ht
  simp only at ht
  cases j with
  | zero =>
    rw [show ((w.activePtr + 1) % 32 + 32 - 0) % 32 = (w.activePtr + 1) % 32 by omega,
      List.getElem?_set_self (by omega)] at ht
    cases ht
    rfl
  | succ j =>
    have he : ((w.activePtr + 1) % 32 + 32 - (j + 1)) % 32 = (w.activePtr + 32 - j) % 32 := by omega
    rw [he, List.getElem?_set_ne (by omega)] at ht
    exact h4 j (by omega) (by omega) t ht

private theorem clean_run : ∀ (ops : List Op) (k : Nat) (w : Window), Clean k w → InOrder w.lastSeq ops →
    Clean (k + ticks ops) (ops.foldl Window.step w) := by
  intro ops
  induction ops with
  | nil => intro k w h _; exact h
  | cons o ops ih =>
    intro k w h ho
    rw [List.foldl_cons]
    cases o with
    | packet seq =>
      obtain ⟨c1, c2⟩ := clean_packet h seq ho.1
      exact ih k _ c1 (by show InOrder (w.packet seq).lastSeq ops; rw [c2]; exact ho.2)
    | lost => exact ih k _ h ho
    | tick mult hi =>
      have := ih (k + 1) _ (clean_tick h mult hi) ho
      rw [show ticks (.tick mult hi :: ops) = ticks ops + 1 from rfl, show k + (ticks ops + 1) = k + 1 + ticks ops by omega]
      exact this

private theorem sums_eq (l : List (Nat × Nat)) (h : ∀ s ∈ l, s.1 = s.2) :
    (l.map Prod.fst).sum = (l.map Prod.snd).sum := by
  induction l with
  | nil => rfl
  | cons a l ih =>
    simp only [List.map_cons, List.sum_cons]
    rw [ih fun s hs => h s (List.mem_cons_of_mem _ hs), h a List.mem_cons_self]

/-- **C36, lossless links.**  Whatever the link's past: once every packet of 32 ticks has arrived in order and no two
HELLOs in a row are missing, the measured quality is perfect, provided there was any traffic. -/
theorem C36_lossless (w : Window) (h1 : w.slots.length = 32) (h2 : w.activePtr < 32) (h3 : w.lastSeq < 65536)
    (ops : List Op) (ho : InOrder w.lastSeq ops) (ht : 32 ≤ ticks ops) (helloint : Nat)
    (hm : (ops.foldl Window.step w).missed ≤ 1)
    (hx : 0 < expectedIn (grown (ops.foldl Window.step w).windowSize) (ops.foldl Window.step w)) :
    ((ops.foldl Window.step w).tick 65536 helloint).valueLq = 255 := by
  have hc := clean_run ops 0 w ⟨h1, h2, h3, fun j hj => by omega⟩ ho
  generalize ops.foldl Window.step w = v at hm hx hc
  obtain ⟨c1, c2, c3, c4⟩ := hc
  have hall : ∀ s ∈ v.slots, s.1 = s.2 := by
    intro s hs
    obtain ⟨i, hi, he⟩ := List.getElem_of_mem hs
    refine c4 ((v.activePtr + 32 - i) % 32) (by omega) (by omega) s ?_
    rw [show (v.activePtr + 32 - (v.activePtr + 32 - i) % 32) % 32 = i by omega, List.getElem?_eq_getElem hi, he]
  have hrt : receivedIn (grown v.windowSize) v = expectedIn (grown v.windowSize) v :=
    sums_eq _ fun s hs => hall s (List.mem_of_mem_take hs)
  show v.measure 65536 helloint % 256 = 255
  rw [measure_eq, if_neg (by omega)]
  unfold corrected
  rw [if_neg (by omega), hrt]
  unfold ratio
  rw [show 65536 * 1024 / 65536 = 1024 from rfl, Nat.mul_div_cancel _ hx]

example : InOrder 65534 [.packet 65535, .tick 65536 0, .packet 0, .packet 1, .tick 65536 0] := by
  simp [InOrder]

/-! ## etx_ffeth -/

/-- **C36 (etx_ffeth).**  After the Ethernet booster the quality still fits its byte, and only a link on an Ethernet
interface can show the value 255 that makes the cost function apply the Ethernet bonus. -/
theorem C36_ffeth_boost (ether : Bool) (lq : Nat) (perfect : Bool) (h : lq ≤ 255) :
    (ethBoost ether lq perfect).1 ≤ 255 ∧ ((ethBoost ether lq perfect).1 = 255 → ether = true) := by
  unfold ethBoost
  cases ether with
  | true =>
    simp only [if_true]
    refine ⟨?_, fun _ => trivial⟩
    generalize (if lq > 242 then true else if lq > 229 then false else perfect) = p
    cases p <;> simp only [if_true, Bool.false_eq_true, if_false] <;> omega
  | false =>
    simp only [Bool.false_eq_true, if_false]
    split
    · exact ⟨by omega, fun h => by omega⟩
    · exact ⟨by omega, fun h => by omega⟩

/-! ## Smoothing -/

/-- the advertised value `s` is an admissible stand-in for the measured value `m`: at most a tenth of `s` away, and a
perfect measurement is never hidden -/
def CloseTo (s m : Nat) : Prop := (m ≤ s + s / 10 ∧ s ≤ m + s / 10) ∧ (m = 255 → s ≤ 255 → s = 255)

private theorem close_of_not_relevant {s m : Nat} (h : relevant s m = false) : CloseTo s m := by
  unfold relevant at h
  unfold CloseTo
  by_cases h1 : s < m
  · rw [if_pos h1, decide_eq_false_iff_not] at h; omega
  · rw [if_neg h1] at h
    by_cases h2 : s > m
    · rw [if_pos h2, decide_eq_false_iff_not] at h; omega
    · omega

private theorem close_self (m : Nat) : CloseTo m m := by unfold CloseTo; omega

/-- **C50.**  After every smoothing pass the advertised qualities of every link are close to the measured ones, and
the link's cost is the cost of the advertised qualities (if it was so before). -/
theorem C50_smoothed_close (links : List Link) (hc : ∀ l ∈ links, l.cost = costFf l.slq l.snlq) :
    ∀ l ∈ (handleChange links).1, CloseTo l.slq l.lq ∧ CloseTo l.snlq l.nlq ∧ l.cost = costFf l.slq l.snlq := by
  have hup : ∀ l : Link, CloseTo l.update.slq l.update.lq ∧ CloseTo l.update.snlq l.update.nlq ∧
      l.update.cost = costFf l.update.slq l.update.snlq := fun l => ⟨close_self _, close_self _, rfl⟩
  have h1 : ∀ l ∈ links.map (fun l => if l.relevant then l.update else l),
      CloseTo l.slq l.lq ∧ CloseTo l.snlq l.nlq ∧ l.cost = costFf l.slq l.snlq := by
    intro l hl
    rw [List.mem_map] at hl
    obtain ⟨k, hk, rfl⟩ := hl
    by_cases hr : k.relevant = true
    · rw [if_pos hr]; exact hup k
    · rw [if_neg hr]
      unfold Link.relevant at hr
      rw [Bool.not_eq_true, Bool.or_eq_false_iff] at hr
      exact ⟨close_of_not_relevant hr.1, close_of_not_relevant hr.2, hc k hk⟩
  unfold handleChange
  simp only
  split
  · intro l hl
    rw [List.mem_map] at hl
    obtain ⟨k, hk, rfl⟩ := hl
    split
    · exact h1 k hk
    · split
      · exact h1 k hk
      · exact hup k
  · exact h1

/-- **C50.**  The pass reports a change exactly if the advertised qualities of some link were no longer close to the
measured ones; it then makes all links except perfect ones exact, and otherwise it changes nothing.  It never touches
the measured qualities and neither adds nor reorders links. -/
theorem C50_change_reported (links : List Link) (hb : ∀ l ∈ links, l.slq ≤ 255 ∧ l.snlq ≤ 255) :
    ((handleChange links).2 = true ↔ ∃ l ∈ links, ¬ (CloseTo l.slq l.lq ∧ CloseTo l.snlq l.nlq)) ∧
    ((handleChange links).2 = true → ∀ l ∈ (handleChange links).1,
      (l.slq = l.lq ∧ l.snlq = l.nlq) ∨ (l.slq = 255 ∧ l.snlq = 255)) ∧
    ((handleChange links).2 = false → (handleChange links).1 = links) ∧
    (handleChange links).1.map (fun l => (l.lq, l.nlq)) = links.map (fun l => (l.lq, l.nlq)) := by
  have hrel : ∀ s m : Nat, s ≤ 255 → (relevant s m = true ↔ ¬ CloseTo s m) := by
    intro s m hs
    unfold relevant CloseTo
    by_cases h1 : s < m
    · rw [if_pos h1, decide_eq_true_iff]; omega
    · rw [if_neg h1]
      by_cases h2 : s > m
      · rw [if_pos h2, decide_eq_true_iff]; omega
      · rw [if_neg h2]
        constructor
        · intro h; cases h
        · intro h; omega
  have hany : links.any Link.relevant = true ↔ ∃ l ∈ links, ¬ (CloseTo l.slq l.lq ∧ CloseTo l.snlq l.nlq) := by
    rw [List.any_eq_true]
    constructor
    · rintro ⟨l, hl, hr⟩
      unfold Link.relevant at hr
      rw [Bool.or_eq_true, hrel _ _ (hb l hl).1, hrel _ _ (hb l hl).2] at hr
      exact ⟨l, hl, fun ⟨a, b⟩ => hr.elim (fun h => h a) (fun h => h b)⟩
    · rintro ⟨l, hl, hr⟩
      refine ⟨l, hl, ?_⟩
      unfold Link.relevant
      rw [Bool.or_eq_true, hrel _ _ (hb l hl).1, hrel _ _ (hb l hl).2]
      by_cases h : CloseTo l.slq l.lq
      · exact .inr fun h' => hr ⟨h, h'⟩
      · exact .inl h
  unfold handleChange
  simp only
  by_cases ha : links.any Link.relevant = true
  · rw [if_pos ha]
    refine ⟨⟨fun _ => hany.1 ha, fun _ => rfl⟩, fun _ => ?_, fun h => (by cases h), ?_⟩
    · intro l hl
      simp only at hl
      rw [List.mem_map] at hl
      obtain ⟨k, _, rfl⟩ := hl
      by_cases h1 : k.slq = 255 ∧ k.snlq = 255
      · rw [if_pos h1]; exact .inr h1
      · rw [if_neg h1]
        by_cases h2 : k.slq = k.lq ∧ k.snlq = k.nlq
        · rw [if_pos h2]; exact .inl h2
        · rw [if_neg h2]; exact .inl ⟨rfl, rfl⟩
    · simp only [List.map_map]
      apply List.map_congr_left
      intro l _
      simp only [Function.comp]
      split <;> split <;> (try split) <;> rfl
  · rw [if_neg ha]
    refine ⟨⟨fun h => (by cases h), fun h => absurd (hany.2 h) ha⟩, fun h => (by cases h), fun _ => ?_, ?_⟩
    · simp only
      rw [List.map_congr_left (g := id) ?_, List.map_id]
      intro l hl
      rw [if_neg]
      · rfl
      · intro h
        exact ha (List.any_eq_true.2 ⟨l, hl, h⟩)
    · simp only [List.map_map]
      apply List.map_congr_left
      intro l _
      simp only [Function.comp]
      split <;> rfl

example : handleChange [⟨200, 255, 215, 255, costFf 215 255⟩, ⟨100, 255, 200, 255, costFf 200 255⟩] =
    ([⟨200, 255, 200, 255, 1305⟩, ⟨100, 255, 100, 255, 2611⟩], true) ∧
    handleChange [⟨200, 255, 215, 255, 1214⟩] = ([⟨200, 255, 215, 255, 1214⟩], false) := by decide

end Verif.Lq
