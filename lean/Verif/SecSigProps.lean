import Verif.SecSigModel

/-!
# C75, C76 — signed packets verify, signing stays inside the buffer
-/

namespace Verif.SecSig

open Verif.Netbuf (write Buf)

private theorem write_eq {m d : List Nat} {a b c : List Nat} (h : m = a ++ b ++ c) (hl : b.length = d.length) :
    write m a.length d = some (a ++ d ++ c) := by
  subst h
  unfold write
  rw [if_pos (by simp; omega)]
  congr 1
  rw [← hl, ← List.length_append, List.drop_left, List.append_assoc a b c, List.take_left]

private theorem sl_mid (a b c : List Nat) (i j : Nat) (hi : i = a.length) (hj : j = a.length + b.length) :
    sl (a ++ b ++ c) i j = b := by
  subst hi hj
  unfold sl
  rw [List.append_assoc, List.drop_left]
  simp

private theorem sl_length (m : List Nat) (i j : Nat) (h : j ≤ m.length) (hij : i ≤ j) : (sl m i j).length = j - i := by
  unfold sl
  rw [List.length_take, List.length_drop]
  omega

private theorem be32_length (x : Nat) : (be32 x).length = 4 := rfl

private theorem message_length (L : Layout) (orig seq now : Nat) (old : List Nat) (h : old.length = L.size) :
    (message L orig seq now old).length = L.size := by
  obtain ⟨l, s⟩ := L
  unfold message
  simp only [List.length_append, be32_length]
  have hs : ∀ i j, i ≤ j → j ≤ (Layout.mk l s).size → (sl old i j).length = j - i := by
    intro i j h1 h2
    exact sl_length _ _ _ (by omega) h1
  rw [hs _ _ (by cases l <;> cases s <;> decide) (by cases l <;> cases s <;> decide),
    hs _ _ (by cases l <;> cases s <;> decide) (by cases l <;> cases s <;> decide),
    hs _ _ (by cases l <;> cases s <;> decide) (by omega)]
  cases l <;> cases s <;> rfl

/-- The signed packet, in closed form. -/
private theorem addSignature_eq (L : Layout) (H : List Nat → List Nat) (key : List Nat) (orig seq now : Nat)
    (p q r : List Nat) (hp : 2 ≤ p.length) (hq : q.length = L.size)
    (hH : ∀ x, (H x).length = L.digest) (hc : p.length + L.size - L.digest + key.length ≤ 1528) :
    ∃ P M, P = be16 (p.length + L.size) ++ p.drop 2 ∧ M = (message L orig seq now q).take (L.size - L.digest) ∧
      M.length = L.size - L.digest ∧
      addSignature L H key orig seq now (p ++ q ++ r) p.length =
        some (P ++ M ++ H (P ++ M ++ key) ++ r, p.length + L.size) := by
  refine ⟨_, _, rfl, rfl, ?_, ?_⟩
  · rw [List.length_take, message_length _ _ _ _ _ hq]; omega
  · have hd : L.digest ≤ L.size := by obtain ⟨l, s⟩ := L; cases l <;> cases s <;> decide
    obtain ⟨P, hP⟩ : ∃ P, P = be16 (p.length + L.size) ++ p.drop 2 := ⟨_, rfl⟩
    have hPl : P.length = p.length := by
      rw [hP, List.length_append, List.length_drop]
      show 2 + _ = _
      omega
    have e1 : write (p ++ q ++ r) 0 (be16 (p.length + L.size)) = some (P ++ q ++ r) := by
      have : p ++ q ++ r = [] ++ p.take 2 ++ (p.drop 2 ++ q ++ r) := by
        rw [List.nil_append, ← List.append_assoc, ← List.append_assoc, List.take_append_drop]
      have h := write_eq this (d := be16 (p.length + L.size)) (by rw [List.length_take]; show min 2 _ = 2; omega)
      rw [show ([] : List Nat).length = 0 from rfl] at h
      rw [h, hP]
      simp
    obtain ⟨G, hG⟩ : ∃ G, G = message L orig seq now q := ⟨_, rfl⟩
    have hGl : G.length = L.size := by rw [hG]; exact message_length _ _ _ _ _ hq
    have e2 : write (P ++ q ++ r) p.length G = some (P ++ G ++ r) := by
      rw [← hPl]
      exact write_eq rfl (by rw [hq, hGl])
    have hsl : sl (P ++ q ++ r) p.length (p.length + L.size) = q :=
      sl_mid _ _ _ _ _ hPl.symm (by rw [hPl, hq])
    obtain ⟨M, hM⟩ : ∃ M, M = G.take (L.size - L.digest) := ⟨_, rfl⟩
    have hMl : M.length = L.size - L.digest := by rw [hM, List.length_take, hGl]; omega
    have hPM : (P ++ M).length = p.length + L.size - L.digest := by
      rw [List.length_append, hPl, hMl]; omega
    have hsplit : P ++ G ++ r = (P ++ M) ++ G.drop (L.size - L.digest) ++ r := by
      rw [hM, List.append_assoc P (G.take _), List.take_append_drop]
    have htake : (P ++ G ++ r).take (p.length + L.size - L.digest) = P ++ M := by
      rw [hsplit, ← hPM, List.append_assoc (P ++ M), List.take_left]
    have e3 : write (P ++ G ++ r) (p.length + L.size - L.digest) (H (P ++ M ++ key)) =
        some (P ++ M ++ H (P ++ M ++ key) ++ r) := by
      rw [← hPM]
      exact write_eq hsplit (by rw [List.length_drop, hGl, hH]; omega)
    unfold addSignature
    rw [e1]
    simp only []
    rw [if_neg (by rw [List.length_append, List.length_append, hPl, hq]; omega), hsl, ← hG, e2]
    simp only []
    rw [if_neg (by omega), htake, e3, ← hP, ← hM]


private theorem getD_mid (a b c : List Nat) (i k : Nat) (hi : i = a.length + k) (hk : k < b.length) :
    (a ++ b ++ c).getD i 0 = b.getD k 0 := by
  subst hi
  rw [List.getD_eq_getElem?_getD, List.getD_eq_getElem?_getD, List.append_assoc,
    List.getElem?_append_right (by omega), Nat.add_sub_cancel_left, List.getElem?_append_left hk]

private theorem getD_take (a : List Nat) (n k : Nat) (hk : k < n) : (a.take n).getD k 0 = a.getD k 0 := by
  rw [List.getD_eq_getElem?_getD, List.getD_eq_getElem?_getD, List.getElem?_take_of_lt hk]

/-- the fixed parts of the signature message -/
private theorem message_parts (L : Layout) (orig seq now : Nat) (old : List Nat) (h : old.length = L.size) :
    ∃ a b c : List Nat,
      message L orig seq now old = [10, 0] ++ be16 L.size ++ be32 orig ++ [1, 0] ++ (be16 seq ++ a) ∧
      message L orig seq now old = b ++ [1, L.scheme, 0, 0] ++ (sl old (L.sub + 4) L.stamp ++
        be32 now ++ (if L.lp64 then [0, 0, 0, 0] else []) ++ sl old L.sign L.size) ∧ b.length = L.sub ∧
      message L orig seq now old = c ++ be32 now ++ ((if L.lp64 then [0, 0, 0, 0] else []) ++ sl old L.sign L.size) ∧
      c.length = L.stamp := by
  refine ⟨sl old 12 L.sub ++ [1, L.scheme, 0, 0] ++ sl old (L.sub + 4) L.stamp ++
    be32 now ++ (if L.lp64 then [0, 0, 0, 0] else []) ++ sl old L.sign L.size,
    [10, 0] ++ be16 L.size ++ be32 orig ++ [1, 0] ++ be16 seq ++ sl old 12 L.sub,
    [10, 0] ++ be16 L.size ++ be32 orig ++ [1, 0] ++ be16 seq ++ sl old 12 L.sub ++
      [1, L.scheme, 0, 0] ++ sl old (L.sub + 4) L.stamp, ?_, ?_, ?_, ?_, ?_⟩
  · unfold message; simp only [List.append_assoc]
  · unfold message; simp only [List.append_assoc]
  · simp only [List.length_append, be32_length]
    obtain ⟨l, s⟩ := L
    rw [sl_length _ _ _ (by rw [h]; cases l <;> cases s <;> decide) (by cases l <;> cases s <;> decide)]
    cases l <;> cases s <;> rfl
  · unfold message; simp only [List.append_assoc]
  · simp only [List.length_append, be32_length]
    obtain ⟨l, s⟩ := L
    rw [sl_length _ _ _ (by rw [h]; cases l <;> cases s <;> decide) (by cases l <;> cases s <;> decide),
      sl_length _ _ _ (by rw [h]; cases l <;> cases s <;> decide) (by cases l <;> cases s <;> decide)]
    cases l <;> cases s <;> rfl

private theorem rd32_be32 (x : Nat) (h : x < 4294967296) :
    x / 16777216 % 256 * 16777216 + x / 65536 % 256 * 65536 + x / 256 % 256 * 256 + x % 256 = x := by omega

/-- Verification of a packet `P ++ M ++ D` whose signature message is the sender's. -/
private theorem validate_eq (L : Layout) (H : List Nat → List Nat) (key : List Nat) (orig seq now : Nat)
    (P q D : List Nat) (hp : 4 ≤ P.length) (hq : q.length = L.size) (hD : D.length = L.digest)
    (ho : orig < 4294967296) (hn : now < 4294967296)
    (hc : P.length + L.size - L.digest + key.length ≤ 1528) :
    validate L H key (P ++ (message L orig seq now q).take (L.size - L.digest) ++ D) =
      if H (P ++ (message L orig seq now q).take (L.size - L.digest) ++ key) ≠
          sl (P ++ (message L orig seq now q).take (L.size - L.digest) ++ D) (P.length + L.sign)
            (P.length + L.sign + L.digest) then .reject
      else .signed orig now P.length := by
  obtain ⟨a, b, c, e1, e2, hb, e3, hcl⟩ := message_parts L orig seq now q hq
  have hdl : L.digest ≤ L.size ∧ 12 ≤ L.size - L.digest ∧ L.sub + 4 ≤ L.size - L.digest ∧
      L.stamp + 4 ≤ L.size - L.digest := by
    obtain ⟨l, s⟩ := L; cases l <;> cases s <;> decide
  obtain ⟨G, hG⟩ : ∃ G, G = message L orig seq now q := ⟨_, rfl⟩
  rw [← hG] at e1 e2 e3 ⊢
  obtain ⟨M, hM⟩ : ∃ M, M = G.take (L.size - L.digest) := ⟨_, rfl⟩
  have hGl : G.length = L.size := by rw [hG]; exact message_length _ _ _ _ _ hq
  have hMl : M.length = L.size - L.digest := by rw [hM, List.length_take, hGl]; omega
  have hlen : (P ++ M ++ D).length = P.length + L.size := by
    rw [List.length_append, List.length_append, hMl, hD]; omega
  have hget : ∀ k, k < L.size - L.digest → (P ++ M ++ D).getD (P.length + k) 0 = G.getD k 0 := by
    intro k hk
    rw [getD_mid P M D _ k rfl (by omega), hM, getD_take _ _ _ hk]
  have g0 : G.getD 0 0 = 10 ∧ G.getD 1 0 = 0 ∧ G.getD 8 0 = 1 ∧ G.getD 9 0 = 0 := by
    rw [e1]; exact ⟨rfl, rfl, rfl, rfl⟩
  have g4 : G.getD 4 0 * 16777216 + G.getD 5 0 * 65536 + G.getD 6 0 * 256 + G.getD 7 0 = orig := by
    rw [e1]; exact rd32_be32 orig ho
  have gs : G.getD L.sub 0 = 1 := by
    rw [e2, getD_mid b [1, L.scheme, 0, 0] _ L.sub 0 (by omega) (Nat.succ_pos 3)]; rfl
  have gt : G.getD L.stamp 0 * 16777216 + G.getD (L.stamp + 1) 0 * 65536 + G.getD (L.stamp + 2) 0 * 256 +
      G.getD (L.stamp + 3) 0 = now := by
    rw [e3, getD_mid c (be32 now) _ L.stamp 0 (by omega) (by rw [be32_length]; decide),
      getD_mid c (be32 now) _ (L.stamp + 1) 1 (by omega) (by rw [be32_length]; decide),
      getD_mid c (be32 now) _ (L.stamp + 2) 2 (by omega) (by rw [be32_length]; decide),
      getD_mid c (be32 now) _ (L.stamp + 3) 3 (by omega) (by rw [be32_length]; decide)]
    exact rd32_be32 now hn
  have gm : sl (P ++ M ++ D) (P.length + 2) (P.length + 4) = be16 L.size := by
    have : P ++ M ++ D = (P ++ [10, 0]) ++ be16 L.size ++ (M.drop 4 ++ D) := by
      have hM4 : M = [10, 0] ++ be16 L.size ++ M.drop 4 := by
        have h4 : M.take 4 = [10, 0] ++ be16 L.size := by
          rw [hM, List.take_take, Nat.min_eq_left (by omega), e1]; rfl
        rw [← h4, List.take_append_drop]
      conv => lhs; rw [hM4]
      simp only [List.append_assoc]
    rw [this]
    exact sl_mid _ _ _ _ _ (by simp) (by simp [be16])
  rw [← hM]
  unfold validate
  rw [hlen, if_neg (by omega)]
  simp only []
  rw [Nat.add_sub_cancel]
  have h0 := hget 0 (by omega)
  rw [Nat.add_zero] at h0
  rw [h0, hget 1 (by omega), hget 8 (by omega), hget 9 (by omega), hget L.sub (by omega), gm, gs]
  rw [if_neg (by rintro (h | h | h | h | h)
                 · exact h g0.1
                 · exact h g0.2.1
                 · exact h rfl
                 · exact h g0.2.2.1
                 · exact h g0.2.2.2)]
  rw [if_neg (by decide), if_neg (by omega)]
  have ht : (P ++ M ++ D).take (P.length + L.size - L.digest) = P ++ M := by
    rw [show P.length + L.size - L.digest = (P ++ M).length by rw [List.length_append, hMl]; omega, List.take_left]
  rw [ht]
  have r1 : rd32 (P ++ M ++ D) (P.length + 4) = orig := by
    unfold rd32
    rw [Nat.add_assoc P.length 4 1, Nat.add_assoc P.length 4 2, Nat.add_assoc P.length 4 3, hget 4 (by omega),
      hget (4 + 1) (by omega), hget (4 + 2) (by omega), hget (4 + 3) (by omega)]
    exact g4
  have r2 : rd32 (P ++ M ++ D) (P.length + L.stamp) = now := by
    unfold rd32
    rw [Nat.add_assoc P.length L.stamp 1, Nat.add_assoc P.length L.stamp 2, Nat.add_assoc P.length L.stamp 3,
      hget L.stamp (by omega), hget (L.stamp + 1) (by omega),
      hget (L.stamp + 2) (by omega), hget (L.stamp + 3) (by omega)]
    exact gt
  rw [r1, r2]

/-! ## C75 -/

/-- The digest lies at the end of the message, where the sender puts it, in all layouts but
SHA-1 with eight-byte `time_t`. -/
theorem C75_layouts (L : Layout) : L.sign + L.digest = L.size ↔ ¬ (L.lp64 = true ∧ L.sha = true) := by
  obtain ⟨l, s⟩ := L
  cases l <;> cases s <;> decide

/-- A packet that was signed with a key verifies with that key, and what is handed to the
parser is the packet before signing, with originator and timestamp of the signer.  For every
digest function, key, packet, content of the buffer behind it; not for SHA-1 with eight-byte
`time_t`, see `C75_lp64_sha1_fails`. -/
theorem C75_verifies_partial (L : Layout) (H : List Nat → List Nat) (key : List Nat) (orig seq now : Nat)
    (p q : List Nat) (hL : ¬ (L.lp64 = true ∧ L.sha = true))
    (hp : 4 ≤ p.length) (hlen : p.take 2 = be16 p.length) (hq : L.size ≤ q.length)
    (hH : ∀ x, (H x).length = L.digest) (ho : orig < 4294967296) (hn : now < 4294967296)
    (hc : p.length + L.size - L.digest + key.length ≤ 1528) :
    ∃ buf n, addSignature L H key orig seq now (p ++ q) p.length = some (buf, n) ∧
      validate L H key (buf.take n) = .signed orig now p.length ∧
      strip (buf.take n) p.length = some p := by
  obtain ⟨q1, r, hqr, hq1⟩ : ∃ q1 r, q = q1 ++ r ∧ q1.length = L.size :=
    ⟨q.take L.size, q.drop L.size, (List.take_append_drop _ _).symm, by rw [List.length_take]; omega⟩
  subst hqr
  obtain ⟨P, M, hP, hM, hMl, e⟩ := addSignature_eq L H key orig seq now p q1 r (by omega) hq1 hH hc
  have hPl : P.length = p.length := by
    rw [hP, List.length_append, List.length_drop]
    show 2 + _ = _
    omega
  have hdl : L.digest ≤ L.size := by obtain ⟨l, s⟩ := L; cases l <;> cases s <;> decide
  rw [← List.append_assoc, e]
  refine ⟨_, _, rfl, ?_, ?_⟩
  all_goals
    have ht : (P ++ M ++ H (P ++ M ++ key) ++ r).take (p.length + L.size) = P ++ M ++ H (P ++ M ++ key) := by
      rw [show p.length + L.size = (P ++ M ++ H (P ++ M ++ key)).length by
        rw [List.length_append, List.length_append, hMl, hH, hPl]; omega, List.take_left]
    rw [ht]
  · have hv := validate_eq L H key orig seq now P q1 (H (P ++ M ++ key)) (by omega) hq1 (hH _) ho hn (by omega)
    rw [← hM] at hv
    have hs : sl (P ++ M ++ H (P ++ M ++ key)) (P.length + L.sign) (P.length + L.sign + L.digest) = H (P ++ M ++ key) := by
      have h1 := (C75_layouts L).2 hL
      have := sl_mid (P ++ M) (H (P ++ M ++ key)) [] (P.length + L.sign) (P.length + L.sign + L.digest)
        (by rw [List.length_append, hMl]; omega) (by rw [List.length_append, hMl, hH]; omega)
      rw [List.append_nil] at this
      exact this
    rw [hs, if_neg (fun h => h rfl), hPl] at hv
    exact hv
  · unfold strip
    have hpp : p = be16 p.length ++ p.drop 2 := by rw [← hlen, List.take_append_drop]
    have hw : write (P ++ M ++ H (P ++ M ++ key)) 0 (be16 p.length) =
        some (be16 p.length ++ p.drop 2 ++ (M ++ H (P ++ M ++ key))) := by
      have : P ++ M ++ H (P ++ M ++ key) = [] ++ be16 (p.length + L.size) ++ (p.drop 2 ++ (M ++ H (P ++ M ++ key))) := by
        obtain ⟨X, hX⟩ : ∃ X, X = H (P ++ M ++ key) := ⟨_, rfl⟩
        rw [← hX, hP]
        simp only [List.append_assoc, List.nil_append]
      have h := write_eq this (d := be16 p.length) rfl
      rw [show ([] : List Nat).length = 0 from rfl] at h
      rw [h]
      simp only [List.nil_append, List.append_assoc]
    rw [hw, ← hpp]
    simp

/-- a packet of twelve bytes, MD5-sized digest by a toy function -/
def exH (n : Nat) (x : List Nat) : List Nat := (List.range n).map fun i => (x.foldl (fun a b => a * 31 + b + i) 7) % 256

example : let p := [0, 12, 0, 5, 1, 2, 3, 4, 5, 6, 7, 8]
    4 ≤ p.length ∧ p.take 2 = be16 p.length ∧
    (addSignature ⟨true, false⟩ (exH 16) [1, 2, 3] 167772161 9 1700000000 (p ++ List.replicate 48 99) 12).map
      (fun r => (r.2, validate ⟨true, false⟩ (exH 16) [1, 2, 3] r.1)) =
      some (60, .signed 167772161 1700000000 12) := by
  refine ⟨by decide, by decide, ?_⟩
  decide +kernel

/-- With SHA-1 and eight-byte `time_t` the structure ends with four bytes of padding: the
sender writes the digest four bytes behind the place where the receiver looks for it.  A packet
is accepted only if its digest happens to repeat with period four. -/
theorem C75_lp64_sha1_fails (H : List Nat → List Nat) (key : List Nat) (orig seq now : Nat)
    (p q : List Nat) (hp : 4 ≤ p.length) (hq : 56 ≤ q.length)
    (hH : ∀ x, (H x).length = 20) (ho : orig < 4294967296) (hn : now < 4294967296)
    (hc : p.length + 36 + key.length ≤ 1528)
    (hdig : ∀ x, ∃ i, i < 16 ∧ (H x).getD (i + 4) 0 ≠ (H x).getD i 0) :
    ∃ buf n, addSignature ⟨true, true⟩ H key orig seq now (p ++ q) p.length = some (buf, n) ∧
      validate ⟨true, true⟩ H key (buf.take n) = .reject := by
  have hsz : (Layout.mk true true).size = 56 := by decide
  have hdg : (Layout.mk true true).digest = 20 := by decide
  have hsg : (Layout.mk true true).sign = 32 := by decide
  obtain ⟨q1, r, hqr, hq1⟩ : ∃ q1 r, q = q1 ++ r ∧ q1.length = 56 :=
    ⟨q.take 56, q.drop 56, (List.take_append_drop _ _).symm, by rw [List.length_take]; omega⟩
  subst hqr
  obtain ⟨P, M, hP, hM, hMl, e⟩ := addSignature_eq ⟨true, true⟩ H key orig seq now p q1 r (by omega) (by rw [hsz]; exact hq1)
    (by rw [hdg]; exact hH) (by rw [hsz, hdg]; omega)
  have hPl : P.length = p.length := by
    rw [hP, List.length_append, List.length_drop]
    show 2 + _ = _
    omega
  rw [hsz, hdg] at hMl
  rw [← List.append_assoc, e]
  refine ⟨_, _, rfl, ?_⟩
  obtain ⟨D, hD⟩ : ∃ D, D = H (P ++ M ++ key) := ⟨_, rfl⟩
  have hDl : D.length = 20 := by rw [hD]; exact hH _
  have ht : (P ++ M ++ H (P ++ M ++ key) ++ r).take (p.length + (Layout.mk true true).size) = P ++ M ++ D := by
    rw [← hD, hsz, show p.length + 56 = (P ++ M ++ D).length by
      rw [List.length_append, List.length_append, hMl, hDl, hPl], List.take_left]
  rw [ht]
  have hv := validate_eq ⟨true, true⟩ H key orig seq now P q1 D (by omega) (by rw [hsz]; exact hq1)
    (by rw [hdg]; exact hDl) ho hn (by rw [hsz, hdg]; omega)
  rw [← hM, ← hD] at hv
  rw [hv, if_pos]
  intro h
  obtain ⟨i, hi, hne⟩ := hdig (P ++ M ++ key)
  rw [← hD] at hne
  apply hne
  have h2 : D.getD (i + 4) 0 =
      (sl (P ++ M ++ D) (P.length + (Layout.mk true true).sign)
        (P.length + (Layout.mk true true).sign + (Layout.mk true true).digest)).getD (i + 4) 0 := by rw [← h]
  rw [h2, hsg, hdg]
  unfold sl
  rw [getD_take _ _ _ (by omega), List.getD_eq_getElem?_getD, List.getElem?_drop, List.getD_eq_getElem?_getD,
    List.getElem?_append_right (by rw [List.length_append]; omega)]
  congr 2
  rw [List.length_append]
  omega

example : ∀ x, ∃ i, i < 16 ∧ ((fun _ => List.range 20) x : List Nat).getD (i + 4) 0 ≠ ((fun (_ : List Nat) => List.range 20) x).getD i 0 :=
  fun _ => ⟨0, by decide, show (List.range 20).getD 4 0 ≠ (List.range 20).getD 0 0 by decide⟩

/-- What is accepted: the last bytes are the digest of all the bytes before them and the key.
So a packet that differs from an accepted one before its digest but carries the same digest is not
accepted, unless the digest function has a collision there. -/
theorem C75_tampering_detected (L : Layout) (H : List Nat → List Nat) (key : List Nat) (a a' d : List Nat)
    (hL : ¬ (L.lp64 = true ∧ L.sha = true)) (hd : d.length = L.digest)
    (hcol : H (a ++ key) ≠ H (a' ++ key)) (o t n o' t' n' : Nat)
    (h : validate L H key (a ++ d) = .signed o t n) : validate L H key (a' ++ d) ≠ .signed o' t' n' := by
  have key : ∀ (a : List Nat) o t n, validate L H key (a ++ d) = .signed o t n → H (a ++ key) = d := by
    intro a o t n h
    unfold validate at h
    split at h
    · cases h
    rename_i hlt
    simp only [] at h
    split at h
    · cases h
    split at h
    · cases h
    split at h
    · cases h
    split at h
    · cases h
    rename_i heq
    have heq := Decidable.not_not.1 heq
    have hl : (a ++ d).length = a.length + L.digest := by rw [List.length_append, hd]
    have hsz := (C75_layouts L).2 hL
    rw [hl, Nat.add_sub_cancel, List.take_left] at heq
    rw [hl] at hlt
    rw [heq]
    have e1 : a.length + L.digest - L.size + L.sign = a.length := by omega
    have e2 : a.length + L.digest - L.size + L.sign + L.digest = a.length + d.length := by omega
    rw [e2, e1]
    have := sl_mid a d [] a.length (a.length + d.length) rfl rfl
    rw [List.append_nil] at this
    exact this
  intro h'
  have h1 := key a o t n h
  have h2 := key a' o' t' n' h'
  exact hcol (h1.trans h2.symm)

example :
    let a := [0, 60, 0, 5, 1, 2, 3, 4, 5, 6, 7, 8, 10, 0, 0, 48, 10, 0, 0, 1, 1, 0, 0, 9, 0, 0, 0, 0, 1, 2, 0, 0,
      0, 0, 0, 0, 0, 0, 0, 9, 0, 0, 0, 0]
    validate ⟨true, false⟩ (exH 16) [3] (a ++ exH 16 (a ++ [3])) = .signed 167772161 9 12 ∧
    exH 16 (a ++ [3]) ≠ exH 16 (a.set 5 3 ++ [3]) := by decide +kernel

/-- The algorithm announced in the message is not looked at: a packet that announces any
other one is verified with the compiled-in one all the same. -/
theorem C75_algorithm_ignored :
    ∃ pck pck' : List Nat, pck.getD (12 + 17) 0 = 2 ∧ pck'.getD (12 + 17) 0 = 77 ∧
      validate ⟨true, false⟩ (fun _ => List.replicate 16 5) [] pck = .signed 167772161 9 12 ∧
      validate ⟨true, false⟩ (fun _ => List.replicate 16 5) [] pck' = .signed 167772161 9 12 :=
  let h := [0, 60, 0, 5, 1, 2, 3, 4, 5, 6, 7, 8, 10, 0, 0, 48, 10, 0, 0, 1, 1, 0, 0, 9, 0, 0, 0, 0, 1]
  let t := [0, 0, 0, 0, 0, 0, 0, 0, 0, 9, 0, 0, 0, 0] ++ List.replicate 16 5
  ⟨h ++ [2] ++ t, h ++ [77] ++ t, by decide, by decide, by decide +kernel, by decide +kernel⟩

/-! ## C76 -/

/-- Signing stays inside the output buffer exactly when there is room for the signature
message behind the pending bytes and the scratch copy fits. -/
theorem C76_room_partial (L : Layout) (H : List Nat → List Nat) (key : List Nat) (orig seq now : Nat)
    (buf : List Nat) (n : Nat) (hn : 2 ≤ n) (hb : n ≤ buf.length) (hH : ∀ x, (H x).length = L.digest) :
    (addSignature L H key orig seq now buf n).isSome = true ↔
      n + L.size ≤ buf.length ∧ n + L.size - L.digest + key.length ≤ 1528 := by
  constructor
  · intro h
    unfold addSignature at h
    have e1 : ∃ m1, write buf 0 (be16 (n + L.size)) = some m1 ∧ m1.length = buf.length := by
      unfold write
      rw [if_pos (by show 0 + 2 ≤ _; omega)]
      refine ⟨_, rfl, ?_⟩
      simp only [List.length_append, List.length_take, List.length_drop]
      show min 0 _ + 2 + (_ - (0 + 2)) = _
      omega
    obtain ⟨m1, e1, l1⟩ := e1
    rw [e1] at h
    simp only [] at h
    split at h
    · cases h
    · rename_i hlt
      split at h
      · cases h
      · split at h
        · cases h
        · omega
  · rintro ⟨h1, h2⟩
    obtain ⟨P, M, _, _, _, e⟩ := addSignature_eq L H key orig seq now (buf.take n) ((buf.drop n).take L.size)
      (buf.drop (n + L.size)) (by rw [List.length_take]; omega) (by rw [List.length_take, List.length_drop]; omega) hH
      (by rw [List.length_take, Nat.min_eq_left hb]; exact h2)
    have hbuf : buf.take n ++ (buf.drop n).take L.size ++ buf.drop (n + L.size) = buf := by
      rw [List.append_assoc, ← List.drop_drop, List.take_append_drop, List.take_append_drop]
    rw [hbuf, List.length_take, Nat.min_eq_left hb] at e
    rw [e]
    rfl

example : (∀ x, (exH 16 x).length = (Layout.mk false false).digest) ∧
    (addSignature ⟨false, false⟩ (exH 16) [] 1 1 1 (List.replicate 56 0) 20).isSome = true ∧
    (addSignature ⟨false, false⟩ (exH 16) [] 1 1 1 (List.replicate 55 0) 20).isSome = false := by
  refine ⟨fun x => ?_, by decide +kernel, by decide +kernel⟩
  unfold exH
  rw [List.length_map, List.length_range]
  rfl

/-- The plug-in reserves no room (`net_reserve_bufspace` is never called), so the code that
fills the buffer uses all of it: whatever the MTU, a message that fills the buffer is accepted,
and when the buffer is then sent the signature is written behind it. -/
theorem C76_full_buffer_overflows (L : Layout) (H : List Nat → List Nat) (key : List Nat) (orig seq now : Nat)
    (junk : List Nat) (seqnum : Nat) (hj : 4 ≤ junk.length) (data : List Nat) (hd : data.length = junk.length - 4) :
    ∃ b, Netbuf.push (Netbuf.addBuffer junk seqnum []) data = some (data.length, b) ∧
      (∃ m, write b.buff 0 (Netbuf.header (b.pending + 4) b.seqnum) = some m ∧ m.length = junk.length ∧
        addSignature L H key orig seq now m (b.pending + 4) = none) := by
  unfold Netbuf.push Netbuf.addBuffer
  simp only []
  rw [if_neg (by omega)]
  have hw : write junk (0 + 4) data = some (junk.take 4 ++ data ++ junk.drop (4 + data.length)) := by
    unfold write
    rw [if_pos (by omega)]
  rw [hw]
  refine ⟨_, rfl, ?_⟩
  simp only [Nat.zero_add]
  have hlen : (junk.take 4 ++ data ++ junk.drop (4 + data.length)).length = junk.length := by
    simp only [List.length_append, List.length_take, List.length_drop]
    omega
  obtain ⟨m0, hm0⟩ : ∃ m0, m0 = junk.take 4 ++ data ++ junk.drop (4 + data.length) := ⟨_, rfl⟩
  rw [← hm0] at hlen ⊢
  have hx : ∃ m, write m0 0 (Netbuf.header (data.length + 4) seqnum) = some m ∧ m.length = junk.length := by
    unfold write
    rw [if_pos (by show 0 + 4 ≤ _; omega)]
    refine ⟨_, rfl, ?_⟩
    simp only [List.length_append, List.length_take, List.length_drop]
    show min 0 _ + 4 + (_ - (0 + 4)) = _
    omega
  obtain ⟨m, e, hl⟩ := hx
  refine ⟨m, e, hl, ?_⟩
  unfold addSignature
  have hs : 0 < L.size := by obtain ⟨l, s⟩ := L; cases l <;> cases s <;> decide
  cases hw1 : write m 0 (be16 (data.length + 4 + L.size)) with
  | none => rfl
  | some m1 =>
    have hl1 : m1.length = m.length := by
      unfold write at hw1
      rw [if_pos (by show 0 + 2 ≤ _; omega)] at hw1
      obtain rfl := Option.some.inj hw1
      simp only [List.length_append, List.length_take, List.length_drop]
      show min 0 _ + 2 + (_ - (0 + 2)) = _
      omega
    simp only []
    rw [if_pos (by omega)]

example : (List.replicate 1472 0).length = 1472 ∧ 4 ≤ (List.replicate 1472 0).length := by
  rw [List.length_replicate]; decide

end Verif.SecSig
