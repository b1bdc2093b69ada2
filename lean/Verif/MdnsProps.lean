import Verif.MdnsModel
/-
C120: what the mdns plugin does to the packets it carries.
-/
namespace Verif.Mdns

/-! ### Specification -/

/-- Addition of 16-bit numbers with end-around carry (RFC 1071). -/
def ocAdd (x y : Nat) : Nat := if x + y ≥ 65536 then x + y - 65535 else x + y

/-- The one's complement sum of the first `n` 16-bit words in network order. -/
def ocSum (m : List Nat) : Nat → Nat
  | 0 => 0
  | n + 1 => ocAdd (ocSum m n) (256 * m.getD (2 * n) 0 + m.getD (2 * n + 1) 0)

/-- An IPv4 packet at the beginning of a piece of memory: header length and total
length make sense. -/
structure V4 (m : List Nat) : Prop where
  bytes : ∀ x ∈ m, x < 256
  ver : m.getD 0 0 / 16 = 4
  ihl : 5 ≤ m.getD 0 0 % 16
  hdr : 4 * (m.getD 0 0 % 16) ≤ 256 * m.getD 2 0 + m.getD 3 0
  tot : 256 * m.getD 2 0 + m.getD 3 0 ≤ m.length

/-- The total length field. -/
def totLen (m : List Nat) : Nat := 256 * m.getD 2 0 + m.getD 3 0

/-- `out` is the packet at the beginning of `m`, with its time to live set to `t` and
the header checksum made right. -/
def Delivered (m out : List Nat) (t : Nat) : Prop :=
  out.length = totLen m ∧
  (∀ j, j < totLen m → j ≠ 8 → j ≠ 10 → j ≠ 11 → out.getD j 0 = m.getD j 0) ∧
  out.getD 8 0 = t ∧ ocSum out (2 * (m.getD 0 0 % 16)) = 65535

/-! ### Helper lemmas -/

private theorem b_lt {m : List Nat} (h : ∀ x ∈ m, x < 256) (i : Nat) : b m i < 256 := by
  unfold b
  rw [List.getD_eq_getElem?_getD]
  cases hx : m[i]? with
  | none => simp
  | some x => exact h x (List.mem_of_getElem? hx)

private theorem b_set_ne (m : List Nat) (i v j : Nat) (h : j ≠ i) : b (m.set i v) j = b m j := by
  unfold b
  simp only [List.getD_eq_getElem?_getD]
  rw [List.getElem?_set_ne (by omega)]

private theorem b_set (m : List Nat) (i v : Nat) (h : i < m.length) : b (m.set i v) i = v := by
  unfold b
  simp only [List.getD_eq_getElem?_getD]
  rw [List.getElem?_set_self h]
  rfl

private theorem put_len (m : List Nat) (i v : Nat) : (putLe m i v).length = m.length := by
  unfold putLe; simp

private theorem put_ne (m : List Nat) (i v j : Nat) (h : j ≠ i) (h' : j ≠ i + 1) :
    b (putLe m i v) j = b m j := by
  unfold putLe
  rw [b_set_ne _ _ _ _ h', b_set_ne _ _ _ _ h]

private theorem put_lo (m : List Nat) (i v : Nat) (h : i + 1 < m.length) :
    b (putLe m i v) i = v % 256 := by
  unfold putLe
  rw [b_set_ne _ _ _ _ (by omega), b_set _ _ _ (by omega)]

private theorem put_hi (m : List Nat) (i v : Nat) (h : i + 1 < m.length) :
    b (putLe m i v) (i + 1) = v / 256 := by
  unfold putLe
  rw [b_set _ _ _ (by simpa using h)]

/-- Changing the word at offset 10. -/
private theorem leSum_put (m : List Nat) (v n : Nat) (h : 11 < m.length) :
    leSum (putLe m 10 v) n + (if 5 < n then le16 m 10 else 0) =
      leSum m n + (if 5 < n then v % 256 + 256 * (v / 256) else 0) := by
  induction n with
  | zero => rfl
  | succ n ih =>
    simp only [leSum]
    by_cases h5 : n = 5
    · subst h5
      have e : le16 (putLe m 10 v) 10 = v % 256 + 256 * (v / 256) := by
        unfold le16
        rw [put_lo m 10 v (by omega), put_hi m 10 v (by omega)]
      simp only [Nat.reduceMul]
      rw [e]
      simp at ih ⊢
      omega
    · have e : le16 (putLe m 10 v) (2 * n) = le16 m (2 * n) := by
        unfold le16
        rw [put_ne _ _ _ _ (by omega) (by omega), put_ne _ _ _ _ (by omega) (by omega)]
      rw [e]
      by_cases h6 : 5 < n
      · rw [if_pos h6, if_pos h6] at ih
        rw [if_pos (by omega), if_pos (by omega)]
        omega
      · rw [if_neg h6, if_neg h6] at ih
        rw [if_neg (by omega), if_neg (by omega)]
        omega

private theorem leSum_le (m : List Nat) (h : ∀ x ∈ m, x < 256) (n : Nat) :
    leSum m n ≤ 65535 * n := by
  induction n with
  | zero => simp [leSum]
  | succ n ih =>
    simp only [leSum, le16]
    have h1 := b_lt h (2 * n)
    have h2 := b_lt h (2 * n + 1)
    omega

private theorem fold_spec (s : Nat) (h : s ≤ 1966050) :
    fold16 s ≤ 65535 ∧ (s + fold16 s) % 65535 = 0 := by
  unfold fold16
  obtain ⟨q, hq⟩ : ∃ q, q = s / 65536 := ⟨_, rfl⟩
  obtain ⟨r, hr⟩ : ∃ r, r = s % 65536 := ⟨_, rfl⟩
  have hs : s = 65536 * q + r := by omega
  have hq' : q ≤ 29 := by omega
  have hr' : r < 65536 := by omega
  rw [← hq, ← hr]
  by_cases hc : q + r < 65536
  · have e1 : (q + r) / 65536 = 0 := by omega
    have e2 : (q + r + 0) % 65536 = q + r := by omega
    rw [e1, e2]
    omega
  · have e1 : (q + r) / 65536 = 1 := by omega
    rw [e1]
    have e2 : (q + r + 1) % 65536 = q + r + 1 - 65536 := by omega
    rw [e2]
    omega

/-- The sum in the order of the machine and the one's complement sum. -/
private theorem oc_le (m : List Nat) (h : ∀ x ∈ m, x < 256) (n : Nat) :
    ocSum m n ≤ 65535 ∧ ocSum m n % 65535 = (256 * leSum m n) % 65535 ∧
      (ocSum m n = 0 → leSum m n = 0) := by
  induction n with
  | zero => simp [ocSum, leSum]
  | succ n ih =>
    obtain ⟨i1, i2, i3⟩ := ih
    simp only [ocSum, leSum, le16]
    have h1 := b_lt h (2 * n)
    have h2 := b_lt h (2 * n + 1)
    change ocAdd (ocSum m n) (256 * b m (2 * n) + b m (2 * n + 1)) ≤ 65535 ∧
      ocAdd (ocSum m n) (256 * b m (2 * n) + b m (2 * n + 1)) % 65535 = _ ∧
      (ocAdd (ocSum m n) (256 * b m (2 * n) + b m (2 * n + 1)) = 0 → _)
    obtain ⟨x, hx⟩ : ∃ x, x = b m (2 * n) := ⟨_, rfl⟩
    obtain ⟨y, hy⟩ : ∃ y, y = b m (2 * n + 1) := ⟨_, rfl⟩
    obtain ⟨o, ho⟩ : ∃ o, o = ocSum m n := ⟨_, rfl⟩
    obtain ⟨l, hl⟩ : ∃ l, l = leSum m n := ⟨_, rfl⟩
    rw [← hx, ← hy, ← ho, ← hl]
    rw [← hx] at h1
    rw [← hy] at h2
    rw [← ho] at i1 i2 i3
    rw [← hl] at i2 i3
    unfold ocAdd
    have hmod : (256 * (l + (x + 256 * y))) % 65535 = (o + (256 * x + y)) % 65535 := by
      have e : 256 * (l + (x + 256 * y)) = 256 * l + (256 * x + y) + 65535 * y := by omega
      rw [e, Nat.add_mul_mod_self_left, Nat.add_mod, ← i2, ← Nat.add_mod]
    split
    · omega
    · omega

private theorem putLe_bytes {m : List Nat} (h : ∀ x ∈ m, x < 256) (i v : Nat) (hv : v < 65536) :
    ∀ x ∈ putLe m i v, x < 256 := by
  intro x hx
  unfold putLe at hx
  rcases List.mem_or_eq_of_mem_set hx with hx | rfl
  · rcases List.mem_or_eq_of_mem_set hx with hx | rfl
    · exact h x hx
    · omega
  · omega

private theorem fold_lt (s : Nat) : fold16 s < 65536 := by
  unfold fold16; omega

private theorem rec_len (m : List Nat) : (recompute m).length = m.length := by
  unfold recompute; rw [put_len, put_len]

private theorem rec_ne (m : List Nat) (j : Nat) (h : j ≠ 10) (h' : j ≠ 11) :
    b (recompute m) j = b m j := by
  unfold recompute
  rw [put_ne _ _ _ _ h (by omega), put_ne _ _ _ _ h (by omega)]

private theorem rec_bytes {m : List Nat} (h : ∀ x ∈ m, x < 256) : ∀ x ∈ recompute m, x < 256 := by
  unfold recompute
  exact putLe_bytes (putLe_bytes h 10 0 (by omega)) 10 _ (fold_lt _)

private theorem rec_ok {m : List Nat} (h : ∀ x ∈ m, x < 256) (hlen : 11 < m.length)
    (hihl : 5 ≤ hl m) (hb0 : 0 < b m 0) : ocSum (recompute m) (2 * hl m) = 65535 := by
  have hlt : hl m < 16 := by unfold hl; omega
  have hz : hl (putLe m 10 0) = hl m := by
    unfold hl
    rw [put_ne _ _ _ _ (by omega) (by omega)]
  obtain ⟨z, hzz⟩ : ∃ z, z = putLe m 10 0 := ⟨_, rfl⟩
  have hzb : ∀ x ∈ z, x < 256 := by rw [hzz]; exact putLe_bytes h 10 0 (by omega)
  have hzl : 11 < z.length := by rw [hzz, put_len]; exact hlen
  have hz10 : le16 z 10 = 0 := by
    unfold le16
    rw [hzz, put_lo m 10 0 (by omega), put_hi m 10 0 (by omega)]
  have hrec : recompute m = putLe z 10 (fold16 (leSum z (2 * hl m))) := by
    unfold recompute
    rw [hz, hzz]
  obtain ⟨n, hn⟩ : ∃ n, n = 2 * hl m := ⟨_, rfl⟩
  rw [hrec, ← hn]
  have hn1 : 5 < n := by omega
  have hn2 : n ≤ 30 := by omega
  have hS := leSum_le z hzb n
  have hS' : leSum z n ≤ 1966050 := by
    have : 65535 * n ≤ 65535 * 30 := Nat.mul_le_mul_left _ hn2
    omega
  have hf := fold_spec (leSum z n) hS'
  have hp := leSum_put z (fold16 (leSum z n)) n hzl
  rw [if_pos hn1, if_pos hn1, hz10] at hp
  have hsum : leSum (putLe z 10 (fold16 (leSum z n))) n = leSum z n + fold16 (leSum z n) := by
    omega
  have hrb : ∀ x ∈ putLe z 10 (fold16 (leSum z n)), x < 256 := putLe_bytes hzb 10 _ (fold_lt _)
  obtain ⟨o1, o2, o3⟩ := oc_le _ hrb n
  have hpos : 0 < leSum (putLe z 10 (fold16 (leSum z n))) n := by
    have hb : b (putLe z 10 (fold16 (leSum z n))) 0 = b m 0 := by
      rw [put_ne _ _ _ _ (by omega) (by omega), hzz, put_ne _ _ _ _ (by omega) (by omega)]
    have hmono : ∀ k, 1 ≤ k → b (putLe z 10 (fold16 (leSum z n))) 0 ≤
        leSum (putLe z 10 (fold16 (leSum z n))) k := by
      intro k hk
      induction k with
      | zero => omega
      | succ k ih =>
        simp only [leSum]
        by_cases hk0 : k = 0
        · subst hk0
          simp only [leSum, le16, Nat.mul_zero]
          omega
        · have := ih (by omega)
          omega
    have := hmono n (by omega)
    omega
  have hne : ocSum (putLe z 10 (fold16 (leSum z n))) n ≠ 0 := by
    intro hh
    have := o3 hh
    omega
  rw [hsum] at o2
  have hm0 : (256 * (leSum z n + fold16 (leSum z n))) % 65535 = 0 := by
    rw [Nat.mul_mod, hf.2]
  rw [hm0] at o2
  obtain ⟨w, hw⟩ : ∃ w, w = ocSum (putLe z 10 (fold16 (leSum z n))) n := ⟨_, rfl⟩
  rw [← hw] at o1 o2 hne ⊢
  omega

private theorem ocSum_take (m : List Nat) (t n : Nat) (h : 2 * n ≤ t) :
    ocSum (m.take t) n = ocSum m n := by
  induction n with
  | zero => rfl
  | succ n ih =>
    simp only [ocSum]
    rw [ih (by omega)]
    have e : ∀ i, i < t → (m.take t).getD i 0 = m.getD i 0 := by
      intro i hi
      simp only [List.getD_eq_getElem?_getD]
      rw [List.getElem?_take, if_pos hi]
    rw [e _ (by omega), e _ (by omega)]

/-- What one turn of the loop makes of an IPv4 packet. -/
private theorem edit_v4 {m : List Nat} (h : V4 m) (ck : Bool) :
    V4 (edit ck m) ∧ totLen (edit ck m) = totLen m ∧ b (edit ck m) 0 = b m 0 ∧
    Delivered m ((edit ck m).take (totLen m)) (if ck then 1 else m.getD 8 0) := by
  obtain ⟨x, hx⟩ : ∃ x, x = (if ck then m.set 8 1 else m) := ⟨_, rfl⟩
  have hed : edit ck m = recompute x := by
    unfold edit
    rw [if_pos (show version m = 4 from h.ver), hx]
  have hi := h.ihl
  have hh := h.hdr
  have ht := h.tot
  have hxl : x.length = m.length := by rw [hx]; cases ck <;> simp
  have hxb : ∀ y ∈ x, y < 256 := by
    intro y hy
    rw [hx] at hy
    cases ck with
    | false => exact h.bytes y hy
    | true =>
      simp only [if_true] at hy
      rcases List.mem_or_eq_of_mem_set hy with hy | rfl
      · exact h.bytes y hy
      · omega
  have hxj : ∀ j, j ≠ 8 → b x j = b m j := by
    intro j hj
    rw [hx]
    cases ck with
    | false => rfl
    | true => exact b_set_ne m 8 1 j hj
  have hx8 : b x 8 = if ck then 1 else m.getD 8 0 := by
    rw [hx]
    cases ck with
    | false => rfl
    | true => exact b_set m 8 1 (by omega)
  have hej : ∀ j, j ≠ 8 → j ≠ 10 → j ≠ 11 → b (edit ck m) j = b m j := by
    intro j h1 h2 h3
    rw [hed, rec_ne _ _ h2 h3, hxj j h1]
  have he0 := hej 0 (by omega) (by omega) (by omega)
  have he2 := hej 2 (by omega) (by omega) (by omega)
  have he3 := hej 3 (by omega) (by omega) (by omega)
  have hlen : (edit ck m).length = m.length := by rw [hed, rec_len, hxl]
  have htot : totLen (edit ck m) = totLen m := by
    change 256 * b (edit ck m) 2 + b (edit ck m) 3 = 256 * b m 2 + b m 3
    rw [he2, he3]
  refine ⟨⟨?_, ?_, ?_, ?_, ?_⟩, htot, he0, ?_, ?_, ?_, ?_⟩
  · rw [hed]; exact rec_bytes hxb
  · change b (edit ck m) 0 / 16 = 4
    rw [he0]; exact h.ver
  · change 5 ≤ b (edit ck m) 0 % 16
    rw [he0]; exact hi
  · change 4 * (b (edit ck m) 0 % 16) ≤ 256 * b (edit ck m) 2 + b (edit ck m) 3
    rw [he0, he2, he3]; exact hh
  · change 256 * b (edit ck m) 2 + b (edit ck m) 3 ≤ _
    rw [he2, he3, hlen]; exact ht
  · rw [List.length_take, hlen]
    unfold totLen
    omega
  · intro j hj h1 h2 h3
    have := hej j h1 h2 h3
    simp only [List.getD_eq_getElem?_getD]
    rw [List.getElem?_take, if_pos hj]
    unfold b at this
    simpa only [List.getD_eq_getElem?_getD] using this
  · have e : ((edit ck m).take (totLen m)).getD 8 0 = b (edit ck m) 8 := by
      unfold b
      simp only [List.getD_eq_getElem?_getD]
      rw [List.getElem?_take, if_pos (by unfold totLen; omega)]
    rw [e, hed, rec_ne _ _ (by omega) (by omega), hx8]
  · rw [ocSum_take _ _ _ (by unfold totLen; omega), hed]
    have hhl : m.getD 0 0 % 16 = hl x := by
      unfold hl
      rw [hxj 0 (by omega)]
      rfl
    rw [hhl]
    apply rec_ok hxb (by omega)
    · rw [← hhl]; exact hi
    · rw [hxj 0 (by omega)]
      have hv := h.ver
      change 0 < m.getD 0 0
      omega

/-- The words of a packet and one's complement sum determine the checksum up to
the two representations of zero; a second turn changes nothing more. -/
private theorem edit_idem {m : List Nat} (h : V4 m) (ck : Bool) : edit ck (edit ck m) = edit ck m := by
  have hi := h.ihl
  have hh := h.hdr
  have ht := h.tot
  have hv : version m = 4 := h.ver
  have hv' : version (edit ck m) = 4 := by
    unfold version
    rw [(edit_v4 h ck).2.2.1]
    exact hv
  have hput : ∀ (x : List Nat) (v w : Nat), putLe (putLe x 10 v) 10 w = putLe x 10 w := by
    intro x v w
    unfold putLe
    rw [List.set_comm (v % 256) (v / 256) (show 10 ≠ 10 + 1 by omega), List.set_set,
      List.set_comm (v / 256) (w % 256) (show 10 + 1 ≠ 10 by omega), List.set_set]
  have hrec : ∀ x : List Nat, 11 < x.length → putLe (recompute x) 10 0 = putLe x 10 0 := by
    intro x _
    unfold recompute
    rw [hput, hput]
  have hrr : ∀ x : List Nat, 11 < x.length → recompute (recompute x) = recompute x := by
    intro x hx
    have h1 := hrec x hx
    show putLe (putLe (recompute x) 10 0) 10
      (fold16 (leSum (putLe (recompute x) 10 0) (2 * hl (putLe (recompute x) 10 0)))) = recompute x
    rw [h1]
    rfl
  unfold edit at hv' ⊢
  rw [if_pos hv] at hv' ⊢
  rw [if_pos hv']
  cases ck with
  | false => exact hrr m (by omega)
  | true =>
    simp only [if_true]
    have hset : (recompute (m.set 8 1)).set 8 1 = recompute (m.set 8 1) := by
      apply List.ext_getElem?
      intro i
      by_cases h8 : i = 8
      · subst h8
        rw [List.getElem?_set_self (by rw [rec_len]; simp; omega)]
        have hb : b (recompute (m.set 8 1)) 8 = 1 := by
          rw [rec_ne _ _ (by omega) (by omega), b_set _ _ _ (by omega)]
        have hlt : 8 < (recompute (m.set 8 1)).length := by rw [rec_len]; simp; omega
        unfold b at hb
        rw [List.getD_eq_getElem?_getD, List.getElem?_eq_getElem hlt] at hb
        rw [List.getElem?_eq_getElem hlt]
        simpa using hb.symm
      · rw [List.getElem?_set_ne (by omega)]
    rw [hset]
    exact hrr _ (by simp; omega)

private theorem unpack_v4 {m : List Nat} (h : V4 m) (ck : Bool) (ifs : List Bool) (old : Nat)
    (out : List Nat) (hout : out = (edit ck m).take (totLen m)) :
    ∃ mem, unpack ck ifs old m = some (List.replicate (ifs.takeWhile id).length out, mem) := by
  induction ifs generalizing m old with
  | nil => exact ⟨m, rfl⟩
  | cons act ifs ih =>
    have hi := h.ihl
    have hh := h.hdr
    have ht := h.tot
    have hs : strip old m = totLen m := by
      unfold strip
      rw [if_pos (show version m = 4 from h.ver)]
      rfl
    have h4 : 4 * hl m ≤ totLen m := hh
    have h5 : 5 ≤ hl m := hi
    have ht' : totLen m ≤ m.length := ht
    simp only [unpack]
    rw [hs, if_neg (by omega), if_neg (by omega)]
    cases act with
    | false => exact ⟨edit ck m, rfl⟩
    | true =>
      rw [if_neg (by simp), if_neg (by omega)]
      have he := edit_v4 h ck
      obtain ⟨mem, hm⟩ := ih he.1 (totLen m) (by
        rw [edit_idem h ck, he.2.1]; exact hout)
      rw [hm]
      refine ⟨mem, ?_⟩
      simp only [Option.map_some, List.takeWhile_cons, id, if_true, List.length_cons,
        List.replicate_succ, hout]

/-! ### The property -/

/-- A message with an IPv4 packet: every LAN interface up to the first on which
this router is not the master gets the packet as it was captured, but for the time
to live, which is 1 (if that is configured), and the header checksum, which is
right. -/
theorem C120_unpack_partial (m : List Nat) (h : V4 m) (ck : Bool) (ifs : List Bool) :
    ∃ out mem, unpack ck ifs 0 m = some (List.replicate (ifs.takeWhile id).length out, mem) ∧
      Delivered m out (if ck then 1 else m.getD 8 0) := by
  obtain ⟨mem, hm⟩ := unpack_v4 h ck ifs 0 _ rfl
  exact ⟨_, mem, hm, (edit_v4 h ck).2.2.2⟩

/-- A packet to 224.0.0.251, port 5353, with four bytes of data. -/
def exPkt : List Nat := [0x45, 0, 0, 32, 0, 0, 0, 0, 255, 17, 1, 2, 10, 0, 0, 5, 224, 0, 0, 251,
  20, 233, 20, 233, 0, 12, 0, 0, 1, 2, 3, 4]

example : V4 exPkt := ⟨by decide, by decide, by decide, by decide, by decide⟩

example : (unpack true [true, true, false, true] 0 exPkt).map (·.1.length) = some 2 := by
  decide +kernel

/-- From LAN to LAN: a packet that is captured is put into a message which another
node, being a symmetric neighbour or behind one, sends into its LANs with nothing
changed but time to live and header checksum, and passes on. -/
theorem C120_tunnel_partial (ck : Bool) (hosts : List (List Nat)) (cap : List (Nat × Bool))
    (skfd ptype : Nat) (frame pkt : List Nat) (h : V4 pkt)
    (hc : doMdns ck hosts cap skfd ptype frame = .done (.send pkt))
    (own own' : List Nat) (hown : own.length = 4) (hne : own ≠ own') (vtime ttl seq : Nat)
    (rest : List Nat) (hrest : ∀ x ∈ rest, x < 256) (msg : List Nat)
    (hmsg : gen false own vtime ttl seq pkt = msg.map some) (ck' : Bool) (ifs : List Bool) :
    frame = pkt ∧ ∃ out,
      parser ⟨false, own', true⟩ ck' ifs (msg ++ rest) =
        some (true, List.replicate (ifs.takeWhile id).length out) ∧
      Delivered pkt out (if ck' then 1 else pkt.getD 8 0) := by
  have hfp : frame = pkt := by
    unfold doMdns at hc
    split at hc
    · cases hc
    · split at hc
      · cases hc
      · split at hc
        · cases hc
        · split at hc
          · have hc' : captured ck hosts frame = .send pkt := by
              simpa using hc
            unfold captured at hc'
            repeat' split at hc'
            all_goals first | (cases hc'; rfl) | (cases hc')
          · cases hc
  refine ⟨hfp, ?_⟩
  -- the message in memory
  have hshape : msg = [132, vtime, (aligned pkt.length + 12) / 256 % 256,
      (aligned pkt.length + 12) % 256] ++ own ++ [ttl, 0, seq / 256 % 256, seq % 256] ++
      (pkt ++ List.replicate (aligned pkt.length - pkt.length) 0) := by
    have hinj : ∀ a c : List Nat, a.map some = c.map some → a = c := by
      intro a
      induction a with
      | nil => intro c hh; cases c with
        | nil => rfl
        | cons => simp at hh
      | cons x xs ih => intro c hh; cases c with
        | nil => simp at hh
        | cons y ys =>
          simp only [List.map_cons, List.cons.injEq, Option.some.injEq] at hh
          rw [hh.1, ih ys hh.2]
    apply hinj
    rw [← hmsg]
    unfold gen
    simp
  have horig : ((msg ++ rest).drop 4).take 4 = own := by
    rw [hshape]
    simp only [List.cons_append, List.nil_append, List.append_assoc, List.drop_succ_cons,
      List.drop_zero]
    rw [List.take_append_of_le_length (by omega), ← hown, List.take_length]
  have hbody : (msg ++ rest).drop 12 =
      pkt ++ (List.replicate (aligned pkt.length - pkt.length) 0 ++ rest) := by
    rw [hshape]
    obtain ⟨a, c, d, e, rfl⟩ : ∃ a c d e, own = [a, c, d, e] := by
      match own, hown with
      | [a, c, d, e], _ => exact ⟨a, c, d, e, rfl⟩
    simp
  obtain ⟨tail, htail⟩ : ∃ tail, tail = List.replicate (aligned pkt.length - pkt.length) 0 ++ rest :=
    ⟨_, rfl⟩
  have hget : ∀ i, i < pkt.length → (pkt ++ tail).getD i 0 = pkt.getD i 0 := by
    intro i hi
    simp only [List.getD_eq_getElem?_getD]
    rw [List.getElem?_append_left hi]
  have hi := h.ihl
  have hh := h.hdr
  have ht := h.tot
  have hv : V4 (pkt ++ tail) := by
    refine ⟨?_, ?_, ?_, ?_, ?_⟩
    · intro x hx
      rcases List.mem_append.1 hx with hx | hx
      · exact h.bytes x hx
      · rw [htail] at hx
        rcases List.mem_append.1 hx with hx | hx
        · rw [List.eq_of_mem_replicate hx]; omega
        · exact hrest x hx
    · rw [hget 0 (by omega)]; exact h.ver
    · rw [hget 0 (by omega)]; exact hi
    · rw [hget 0 (by omega), hget 2 (by omega), hget 3 (by omega)]; exact hh
    · rw [hget 2 (by omega), hget 3 (by omega), List.length_append]; omega
  obtain ⟨out, mem, hun, hdel⟩ := C120_unpack_partial (pkt ++ tail) hv ck' ifs
  refine ⟨out, ?_, ?_⟩
  · unfold parser
    simp only [Bool.false_eq_true, if_false]
    rw [horig, if_neg hne, if_neg (by simp)]
    show (unpack ck' ifs 0 ((msg ++ rest).drop 12)).map _ = _
    rw [hbody, ← htail, hun]
    rfl
  · obtain ⟨d1, d2, d3, d4⟩ := hdel
    have htl : totLen (pkt ++ tail) = totLen pkt := by
      unfold totLen
      rw [hget 2 (by omega), hget 3 (by omega)]
    rw [htl] at d1 d2
    rw [hget 8 (by omega)] at d3
    rw [hget 0 (by omega)] at d4
    refine ⟨d1, ?_, d3, d4⟩
    intro j hj h1 h2 h3
    rw [d2 j hj h1 h2 h3]
    exact hget j (by unfold totLen at hj; omega)

example : doMdns true [] [(5, true)] 5 2 exPkt = .done (.send exPkt) := by decide +kernel

example : gen false [10, 0, 0, 1] 0x8a 255 7 exPkt =
    ([132, 0x8a, 0, 44, 10, 0, 0, 1, 255, 0, 0, 7] ++ exPkt).map some := by decide +kernel

/-- What is captured: multicast UDP packets to port 5353 that are not from a
filtered host and, if that is to be checked, may still travel. -/
theorem C120_capture (ck : Bool) (hosts : List (List Nat)) (pkt : List Nat) (h : V4 pkt)
    (hu : 4 * (pkt.getD 0 0 % 16) + 4 ≤ pkt.length) :
    captured ck hosts pkt ≠ .undef ∧
    (captured ck hosts pkt = .send pkt ↔
      (224 ≤ pkt.getD 16 0 ∧ pkt.getD 16 0 ≤ 239) ∧ pkt.getD 9 0 = 17 ∧
      (∃ o, o = 4 * (pkt.getD 0 0 % 16) ∧
        256 * pkt.getD (o + 2) 0 + pkt.getD (o + 3) 0 = 5353) ∧
      (ck = true → 2 ≤ pkt.getD 8 0) ∧ (pkt.drop 12).take 4 ∉ hosts) := by
  have h16 : pkt.getD 16 0 < 256 := b_lt h.bytes 16
  unfold captured
  rw [if_pos (show version pkt = 4 from h.ver)]
  change (if ¬ pkt.getD 16 0 / 16 = 14 then _ else _) ≠ _ ∧ ((if ¬ pkt.getD 16 0 / 16 = 14 then _ else _) = _ ↔ _)
  by_cases h1 : ¬ (pkt.getD 16 0 / 16 = 14)
  · rw [if_pos h1]
    refine ⟨by simp, ⟨fun hh => (by cases hh), fun hh => absurd hh.1 (by omega)⟩⟩
  have h1 := Decidable.not_not.1 h1
  rw [if_neg (by simpa using h1)]
  by_cases h2 : ¬ (pkt.getD 9 0 = 17)
  · rw [if_pos (show b pkt 9 ≠ 17 from h2)]
    exact ⟨by simp, ⟨fun hh => (by cases hh), fun hh => absurd hh.2.1 h2⟩⟩
  have h2 := Decidable.not_not.1 h2
  rw [if_neg (show ¬ b pkt 9 ≠ 17 from fun hh => hh h2)]
  rw [if_neg (show ¬ pkt.length < 4 * hl pkt + 4 by
    change ¬ pkt.length < 4 * (pkt.getD 0 0 % 16) + 4; omega)]
  by_cases h3 : ¬ (be16 pkt (4 * hl pkt + 2) = 5353)
  · rw [if_pos h3]
    refine ⟨by simp, ⟨fun hh => (by cases hh), fun hh => ?_⟩⟩
    obtain ⟨o, ho, hp⟩ := hh.2.2.1
    subst ho
    exact absurd hp h3
  have h3 := Decidable.not_not.1 h3
  rw [if_neg (fun hh => hh h3)]
  by_cases h4 : ck = true ∧ b pkt 8 ≤ 1
  · rw [if_pos h4]
    refine ⟨by simp, ⟨fun hh => (by cases hh), fun hh => ?_⟩⟩
    have h5 := hh.2.2.2.1 h4.1
    have h6 : pkt.getD 8 0 ≤ 1 := h4.2
    omega
  rw [if_neg h4]
  by_cases h5 : filtered hosts ((pkt.drop 12).take 4) = true
  · rw [if_pos h5]
    refine ⟨by simp, ⟨fun hh => (by cases hh), fun hh => ?_⟩⟩
    exact absurd (List.contains_iff_mem.1 h5) hh.2.2.2.2
  rw [if_neg h5]
  refine ⟨by simp, ⟨fun _ => ⟨by omega, h2, ⟨_, rfl, h3⟩, ?_, ?_⟩, fun _ => rfl⟩⟩
  · intro hck
    by_cases h6 : b pkt 8 ≤ 1
    · exact absurd ⟨hck, h6⟩ h4
    · change 2 ≤ b pkt 8
      omega
  · intro hm
    exact h5 (List.contains_iff_mem.2 hm)

example : captured true [[10, 0, 0, 6]] exPkt = .send exPkt ∧ captured true [[10, 0, 0, 5]] exPkt = .drop :=
  by decide +kernel

/-- The message that is built for an IPv4 packet is wholly written, and its size
field tells its length. -/
theorem C120_gen_partial (own : List Nat) (hown : own.length = 4) (vtime ttl seq : Nat)
    (pkt : List Nat) (hl : pkt.length ≤ 65520) :
    ∃ msg : List Nat, gen false own vtime ttl seq pkt = msg.map some ∧
      256 * msg.getD 2 0 + msg.getD 3 0 = msg.length ∧ msg.length % 4 = 0 ∧
      (msg.drop 12).take pkt.length = pkt ∧ msg.length < pkt.length + 16 := by
  refine ⟨[132, vtime] ++ [(aligned pkt.length + 12) / 256 % 256, (aligned pkt.length + 12) % 256] ++
    own ++ [ttl, 0, seq / 256 % 256, seq % 256] ++ pkt ++
    List.replicate (aligned pkt.length - pkt.length) 0, ?_, ?_, ?_, ?_, ?_⟩
  · unfold gen
    simp
  · have ha : aligned pkt.length ≤ 65520 ∧ pkt.length ≤ aligned pkt.length := by
      unfold aligned; split <;> omega
    simp only [List.cons_append, List.nil_append, List.getD_cons_succ, List.getD_cons_zero,
      List.length_cons, List.length_append, List.length_replicate, hown, List.length_nil]
    omega
  · have ha : aligned pkt.length % 4 = 0 ∧ pkt.length ≤ aligned pkt.length := by
      unfold aligned; split <;> omega
    simp only [List.cons_append, List.nil_append,
      List.length_cons, List.length_append, List.length_replicate, hown, List.length_nil]
    omega
  · obtain ⟨a, c, d, e, rfl⟩ : ∃ a c d e, own = [a, c, d, e] := by
      match own, hown with
      | [a, c, d, e], _ => exact ⟨a, c, d, e, rfl⟩
    simp
  · have ha : aligned pkt.length < pkt.length + 4 ∧ pkt.length ≤ aligned pkt.length := by
      unfold aligned; split <;> omega
    simp only [List.cons_append, List.nil_append,
      List.length_cons, List.length_append, List.length_replicate, hown, List.length_nil]
    omega

example : (gen false [10, 0, 0, 1] 0 255 0 (List.replicate 33 9)).length = 48 := by decide +kernel

/-- Of the message for an IPv6 packet the last 84 bytes are whatever was on the
stack, and are sent. -/
theorem C120_stack_negation (own : List Nat) (vtime ttl seq : Nat) (pkt : List Nat) :
    ∃ init : List Nat, gen true own vtime ttl seq pkt = init.map some ++ List.replicate 84 none := by
  exact ⟨_, rfl⟩

/-- An IPv6 packet does not survive: the place where an IPv4 header has its
checksum is in the middle of the source address, and it is overwritten.  For every
packet with a traffic class below 16 bytes 10 and 11 (the second group of the
address) become 255; nothing else but the hop limit changes. -/
theorem C120_v6_negation (m : List Nat) (ck : Bool) (hv : m.getD 0 0 = 0x60)
    (hlen : 40 + (256 * m.getD 4 0 + m.getD 5 0) ≤ m.length) :
    ∃ out mem, unpack ck [true] 0 m = some ([out], mem) ∧
      out.getD 10 0 = 255 ∧ out.getD 11 0 = 255 ∧
      (∀ j, j < 40 + (256 * m.getD 4 0 + m.getD 5 0) → j ≠ 7 → j ≠ 10 → j ≠ 11 →
        out.getD j 0 = m.getD j 0) := by
  have hv0 : b m 0 = 96 := hv
  have hver : version m = 6 := by unfold version; rw [hv0]
  have hhl : hl (putLe m 10 0) = 0 := by
    unfold hl
    rw [put_ne _ _ _ _ (by omega) (by omega), hv0]
  have hhl' : hl m = 0 := by unfold hl; rw [hv0]
  have hrec : recompute m = putLe (putLe m 10 0) 10 65535 := by
    unfold recompute
    rw [hhl, show leSum (putLe m 10 0) (2 * 0) = 0 from rfl, show fold16 0 = 65535 by decide]
  have hs : strip 0 m = 40 + (256 * m.getD 4 0 + m.getD 5 0) := by
    unfold strip
    rw [if_neg (by omega), if_pos hver]
    unfold be16
    rw [rec_ne _ _ (by omega) (by omega), rec_ne _ _ (by omega) (by omega)]
    rfl
  have hed : ∀ j, j ≠ 7 → b (edit ck m) j = b (recompute m) j := by
    intro j hj
    unfold edit
    rw [if_neg (by omega), if_pos hver]
    cases ck with
    | false => rfl
    | true => exact b_set_ne _ _ _ _ hj
  obtain ⟨n, hn⟩ : ∃ n, n = 40 + (256 * m.getD 4 0 + m.getD 5 0) := ⟨_, rfl⟩
  rw [← hn] at hs hlen ⊢
  have htake : ∀ j, j < n → ((edit ck m).take n).getD j 0 = b (edit ck m) j := by
    intro j hj
    unfold b
    simp only [List.getD_eq_getElem?_getD]
    rw [List.getElem?_take, if_pos hj]
  refine ⟨(edit ck m).take n, edit ck m, ?_, ?_, ?_, ?_⟩
  · simp only [unpack]
    rw [hs, hhl', if_neg (by omega), if_neg (by omega), if_neg (by simp), if_neg (by omega)]
    rfl
  · rw [htake 10 (by omega), hed 10 (by omega), hrec, put_lo _ _ _ (by rw [put_len]; omega)]
  · rw [htake 11 (by omega), hed 11 (by omega), hrec, put_hi _ _ _ (by rw [put_len]; omega)]
  · intro j hj h1 h2 h3
    rw [htake j hj, hed j h1, rec_ne _ _ h2 h3]
    rfl

/-- An IPv6 packet without payload, from fe80::1:2:3:4. -/
def exV6 : List Nat := [0x60, 0, 0, 0, 0, 0, 17, 255, 0xfe, 0x80, 0, 0, 0, 0, 0, 0, 0, 1, 0, 2, 0, 3, 0, 4,
  0xff, 2, 0, 0, 0, 0, 0, 0, 0, 0, 0, 0, 0, 0, 0, 0xfb]

example : (unpack true [true] 0 exV6).map (fun r => (r.1.map (fun o => (o.drop 8).take 8))) =
    some [[0xfe, 0x80, 255, 255, 0, 0, 0, 0]] := by decide +kernel

/-- A router that is not the master on the first of its interfaces sends nothing
on any, though it may be the master there. -/
theorem C120_inactive_negation : ∃ (m : List Nat) (ifs : List Bool), V4 m ∧ ifs[1]? = some true ∧
    (unpack true ifs 0 m).map (·.1) = some [] :=
  ⟨exPkt, [false, true], ⟨by decide, by decide, by decide, by decide, by decide⟩, rfl,
    by decide +kernel⟩

/-- The length that counts is the one in the carried packet, not that of the
message: bytes that follow the message in memory are sent into the LAN. -/
theorem C120_length_negation (secret : List Nat) (hlen : secret.length = 80) :
    ∃ (body out mem : List Nat), body.length = 20 ∧
      unpack false [true] 0 (body ++ secret) = some ([out], mem) ∧ out.length = 100 ∧
      out.drop 20 = secret := by
  refine ⟨[0x40, 0, 0, 100, 0, 0, 0, 0, 255, 17, 0, 0, 10, 0, 0, 5, 224, 0, 0, 251],
    [0x40, 0, 0, 100, 0, 0, 0, 0, 255, 17, 255, 255, 10, 0, 0, 5, 224, 0, 0, 251] ++ secret,
    [0x40, 0, 0, 100, 0, 0, 0, 0, 255, 17, 255, 255, 10, 0, 0, 5, 224, 0, 0, 251] ++ secret, rfl, ?_, by simp [hlen], by simp⟩
  have hed : edit false ([0x40, 0, 0, 100, 0, 0, 0, 0, 255, 17, 0, 0, 10, 0, 0, 5, 224, 0, 0, 251] ++ secret) =
      [0x40, 0, 0, 100, 0, 0, 0, 0, 255, 17, 255, 255, 10, 0, 0, 5, 224, 0, 0, 251] ++ secret := by
    simp [edit, version, b, recompute, putLe, hl, leSum, fold16]
  have hs : strip 0 ([0x40, 0, 0, 100, 0, 0, 0, 0, 255, 17, 0, 0, 10, 0, 0, 5, 224, 0, 0, 251] ++ secret) = 100 := by
    simp [strip, version, b, be16]
  have hh : hl ([0x40, 0, 0, 100, 0, 0, 0, 0, 255, 17, 0, 0, 10, 0, 0, 5, 224, 0, 0, 251] ++ secret) = 0 := by
    simp [hl, b]
  simp only [unpack]
  rw [hs, hed, hh, if_neg (by simp), if_neg (by omega), if_neg (by simp),
    if_neg (by simp [hlen])]
  rw [List.take_of_length_le (by simp [hlen])]
  rfl

example : (List.replicate 80 7 : List Nat).length = 80 := by decide +kernel

/-- And if it is larger than all the memory behind the beginning of the packet,
the daemon reads behind the end of its receive buffer. -/
theorem C120_read_negation (m : List Nat) (hv : m.getD 0 0 = 0x45) (hlen : 20 ≤ m.length)
    (ht : m.length < 256 * m.getD 2 0 + m.getD 3 0) (ck : Bool) (ifs : List Bool) :
    unpack ck (true :: ifs) 0 m = none := by
  have hver : version m = 4 := by
    unfold version b
    rw [hv]
  have hhl : hl m = 5 := by
    unfold hl b
    rw [hv]
  have hs : strip 0 m = 256 * m.getD 2 0 + m.getD 3 0 := by
    unfold strip
    rw [if_pos hver]
    rfl
  simp only [unpack]
  rw [hs, if_neg (by omega), if_neg (by omega), if_neg (by simp), if_pos ht]

example : ([0x45, 0, 5, 220, 0, 0, 0, 0, 255, 17, 0, 0, 10, 0, 0, 5, 224, 0, 0, 251] : List Nat).length <
    256 * 5 + 220 := by decide +kernel

/-- A packet longer than 2040 bytes overruns the receive buffer. -/
theorem C120_overflow_negation (ck : Bool) (hosts : List (List Nat)) (ifs : List (Nat × Bool))
    (skfd ptype : Nat) (frame : List Nat) :
    doMdns ck hosts ifs skfd ptype frame = .overflow ↔ 2041 ≤ frame.length := by
  unfold doMdns
  constructor
  · intro h
    by_cases hl : 2040 < frame.length
    · omega
    · rw [if_neg hl] at h
      repeat' split at h
      all_goals cases h
  · intro h
    rw [if_pos (by omega)]

/-- A packet whose header claims to be longer than what was received is judged by
bytes nobody has written, and so is every IPv6 packet as soon as one host is to be
filtered. -/
theorem C120_undefined_negation :
    (∃ pkt : List Nat, pkt.length = 20 ∧ doMdns true [] [(5, true)] 5 2 pkt = .done .undef) ∧
    (∃ (pkt host : List Nat), pkt.length = 48 ∧ host.length = 16 ∧
      doMdns true [host] [(5, true)] 5 2 pkt = .done .undef ∧
      doMdns true [] [(5, true)] 5 2 pkt = .done (.send pkt)) := by
  refine ⟨⟨[0x4f, 0, 0, 20, 0, 0, 0, 0, 255, 17, 0, 0, 10, 0, 0, 5, 224, 0, 0, 251], rfl, ?_⟩,
    exV6 ++ [20, 233, 20, 233, 0, 8, 0, 0], List.replicate 16 1, by decide +kernel,
    by decide +kernel, ?_, ?_⟩
  · decide +kernel
  · decide +kernel
  · decide +kernel

/-- A router that is not the master on an interface takes nothing from it. -/
theorem C120_passive (ck : Bool) (hosts : List (List Nat)) (ifs : List (Nat × Bool))
    (skfd ptype : Nat) (frame : List Nat) (hl : frame.length ≤ 2040) (hm : (skfd, false) ∈ ifs) :
    doMdns ck hosts ifs skfd ptype frame = .done .drop := by
  unfold doMdns
  rw [if_neg (by omega)]
  by_cases h : frame.length < 20
  · rw [if_pos h]
  · rw [if_neg h, if_pos]
    rw [List.any_eq_true]
    exact ⟨_, hm, by simp⟩

example : exPkt.length ≤ 2040 ∧ ((5, false) : Nat × Bool) ∈ [(4, true), (5, false)] := by decide +kernel

/-- A router that is the master on the interface takes every multicast and
broadcast packet that fits into its buffer to the decision above, whatever it is on
the other interfaces. -/
theorem C120_taken (ck : Bool) (hosts : List (List Nat)) (ifs : List (Nat × Bool))
    (skfd ptype : Nat) (frame : List Nat) (hl : frame.length ≤ 2040) (h20 : 20 ≤ frame.length)
    (hm : (skfd, false) ∉ ifs) (hp : ptype = 1 ∨ ptype = 2 ∨ ptype = 4) :
    doMdns ck hosts ifs skfd ptype frame = .done (captured ck hosts frame) := by
  unfold doMdns
  rw [if_neg (by omega), if_neg (by omega), if_neg, if_pos (by omega)]
  rw [List.any_eq_true]
  rintro ⟨⟨a, c⟩, h1, h2⟩
  simp only [Bool.and_eq_true, beq_iff_eq, Bool.not_eq_true'] at h2
  rw [h2.1, h2.2] at h1
  exact hm h1

example : doMdns true [] [(4, false), (5, true)] 5 2 exPkt = .done (.send exPkt) := by decide +kernel

/-- The message is passed on to other nodes only if it is from another node and
came over a symmetric link. -/
theorem C120_forward (p : Peer) (ck : Bool) (ifs : List Bool) (m : List Nat) (sent : List (List Nat))
    (h : parser p ck ifs m = some (true, sent)) :
    p.sym = true ∧ (m.drop 4).take (if p.v6 then 16 else 4) ≠ p.own := by
  unfold parser at h
  by_cases h1 : (m.drop 4).take (if p.v6 then 16 else 4) = p.own
  · rw [if_pos h1] at h; cases h
  · rw [if_neg h1] at h
    by_cases h2 : p.sym = false
    · rw [if_pos h2] at h; cases h
    · exact ⟨by simpa using h2, h1⟩

example : (parser ⟨false, [10, 0, 0, 2], true⟩ true [true]
    ([132, 0x8a, 0, 44, 10, 0, 0, 1, 255, 0, 0, 7] ++ exPkt)).map (·.1) = some true := by
  decide +kernel

end Verif.Mdns
