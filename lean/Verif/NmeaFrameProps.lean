import Verif.NmeaFrameLemmas

/-!
# C146: the parser of nmealib finds exactly the sentences of its input

What a sentence is stands in `NmeaFrameSpec.lean`.
-/

namespace Verif.NmeaFrame

/-- For every size of the buffer, whatever the memory holds, and every input in pieces of any sizes: no memory outside of the
buffer is touched, and the texts that are handed on are the sentences of the whole input that fit, each once and in order. -/
theorem C146_sentences (sz : Nat) (mem : Nat → Nat) (pieces : List (List Nat)) :
    ∃ p q out, init sz mem = some p ∧ parseAll p pieces = some (q, out) ∧
      Sentences ((if sz = 0 then 4096 else sz) - 1) pieces.flatten out := by
  obtain ⟨p, h1, h2⟩ := init_ok sz mem
  obtain ⟨q, out, h3, _, h4⟩ := parseAll_inv (bufferSize sz - 1) pieces p [] [] h2 .nil
  exact ⟨p, q, out, h1, h3, by simpa [bufferSize] using h4⟩

/-- The characters of a text. -/
private def chars (s : String) : List Nat := s.toList.map Char.toNat

example : (init 32 (fun i => i)).bind (fun p =>
      (parseAll p [chars "x$AB", chars "C*40\r\n$A", chars "$Q\r\n$ABC*41\r\n"]).map Prod.snd) =
    some [chars "$ABC*40", chars "$Q"] := by decide +kernel

/-- The sentences of an input are determined, and an input has no two sentences with the same end. -/
theorem C146_unique (n : Nat) (cs : List Nat) (out out' : List (List Nat)) (h : Sentences n cs out) (h' : Sentences n cs out') :
    out = out' := by
  have key : ∀ k (cs : List Nat), cs.length = k → ∀ out out', Sentences n cs out → Sentences n cs out' → out = out' := by
    intro k
    induction k with
    | zero =>
      intro cs hk out out' h h'
      have : cs = [] := List.length_eq_zero_iff.mp hk
      cases h with
      | nil =>
        generalize hx : ([] : List Nat) = xs at h'
        cases h' with
        | nil => rfl
        | other cs c _ _ _ => simp at hx
        | one cs c _ _ _ _ => simp at hx
      | other cs c _ _ _ => simp at hk
      | one cs c _ _ _ _ => simp at hk
    | succ k ih =>
      intro cs hk out out' h h'
      cases h with
      | nil => simp at hk
      | other ds c out h hn =>
        generalize hx : ds ++ [c] = xs at h'
        cases h' with
        | nil => simp at hx
        | other ds' c' out' h2 hn2 =>
          have e := List.append_inj_left' hx rfl
          subst e
          exact ih ds (by simpa using hk) _ _ h h2
        | one ds' c' out' s h2 he =>
          rw [← hx] at he
          exact absurd he (hn s)
      | one ds c out s h he =>
        generalize hx : ds ++ [c] = xs at h'
        cases h' with
        | nil => simp at hx
        | other ds' c' out' h2 hn2 =>
          rw [← hx] at hn2
          exact absurd he (hn2 s)
        | one ds' c' out' s' h2 he2 =>
          rw [← hx] at he2
          have e := List.append_inj_left' hx rfl
          subst e
          rw [ih ds (by simpa using hk) _ _ h h2, ends_unique he he2]
  exact key _ cs rfl out out' h h'

/-- How the input is cut into pieces does not matter. -/
theorem C146_pieces (sz : Nat) (mem mem' : Nat → Nat) (a b : List (List Nat)) (p p' q q' : P) (out out' : List (List Nat))
    (hab : a.flatten = b.flatten) (h1 : init sz mem = some p) (h2 : init sz mem' = some p')
    (h3 : parseAll p a = some (q, out)) (h4 : parseAll p' b = some (q', out')) : out = out' := by
  obtain ⟨_, _, o, e1, e2, e3⟩ := C146_sentences sz mem a
  obtain ⟨_, _, o', f1, f2, f3⟩ := C146_sentences sz mem' b
  rw [h1] at e1; cases e1
  rw [h2] at f1; cases f1
  rw [h3] at e2; cases e2
  rw [h4] at f2; cases f2
  rw [← hab] at f3
  exact C146_unique _ _ _ _ e3 f3

example : (init 9 (fun _ => 7)).bind (fun p => (parseAll p [chars "$A", chars "B\r", chars "\n"]).map Prod.snd) =
    (init 9 (fun _ => 8)).bind (fun p => (parseAll p [chars "$AB\r\n"]).map Prod.snd) := by decide +kernel

/-- A text of plain characters with the checksum that the library appends is found again, whatever came before. -/
theorem C146_generated (n : Nat) (b pre : List Nat) (hb : AllPlain b) (hn : b.length + 6 ≤ n) :
    ∃ h1 h2, appendChecksum ('$'.toNat :: b) = '$'.toNat :: b ++ ['*'.toNat, h1, h2] ++ ['\r'.toNat, '\n'.toNat] ∧
      Ends n (pre ++ appendChecksum ('$'.toNat :: b)) ('$'.toNat :: b ++ ['*'.toNat, h1, h2]) := by
  have hc : crc (36 :: b) = xorAll b := by
    show (if (36 : Nat) = 36 then b.foldl (· ^^^ ·) 0 else _) % 256 = _
    rw [if_pos rfl, xor_foldl, Nat.zero_xor]
    have := xor_lt hb
    omega
  have hlt := xor_lt hb
  have ha : appendChecksum (36 :: b) = 36 :: b ++ [42, hexDigit (xorAll b / 16), hexDigit (xorAll b % 16)] ++ [13, 10] := by
    unfold appendChecksum; rw [hc]; simp
  refine ⟨hexDigit (xorAll b / 16), hexDigit (xorAll b % 16), ha, ⟨b, _, hb, Or.inr ⟨_, _, xorAll b / 16, xorAll b % 16, rfl,
    hexDigit_ok (by omega), hexDigit_ok (by omega), by omega⟩, rfl⟩, by simp; omega, pre, ?_⟩
  show pre ++ appendChecksum (36 :: b) = _
  rw [ha, ← List.append_assoc]
  rfl

example : appendChecksum (chars "$GPGGA,1") = chars "$GPGGA,1*4B\r\n" := by decide +kernel

/-- One altered character in the text before the checksum is always noticed: no sentence ends there any more. -/
theorem C146_single_error (n : Nat) (pre b1 b2 : List Nat) (c c' h1 h2 : Nat) (hc : Plain c') (hne : c ≠ c')
    (h : Ends n (pre ++ '$'.toNat :: (b1 ++ c :: b2) ++ ['*'.toNat, h1, h2] ++ ['\r'.toNat, '\n'.toNat])
      ('$'.toNat :: (b1 ++ c :: b2) ++ ['*'.toNat, h1, h2]))
    (hp : AllPlain (b1 ++ c :: b2)) (s : List Nat) :
    ¬ Ends n (pre ++ '$'.toNat :: (b1 ++ c' :: b2) ++ ['*'.toNat, h1, h2] ++ ['\r'.toNat, '\n'.toNat]) s := by
  have hp' : AllPlain (b1 ++ c' :: b2) := by
    intro y hy
    rcases List.mem_append.mp hy with hy | hy
    · exact hp y (by simp [hy])
    · rcases List.mem_cons.mp hy with hy | hy
      · rw [hy]; exact hc
      · exact hp y (by simp [hy])
  obtain ⟨⟨b, t, hb, ht, hs⟩, _, _⟩ := h
  have hs' : (b1 ++ c :: b2) ++ [42, h1, h2] = b ++ t := by simpa using hs
  obtain ⟨w1, w2, g1, g2, g3⟩ : ∃ w1 w2, Hex h1 w1 ∧ Hex h2 w2 ∧ 16 * w1 + w2 = xorAll (b1 ++ c :: b2) := by
    rcases ht with ht | ⟨d1, d2, w1, w2, ht, g1, g2, g3⟩
    · subst ht
      exact absurd (hb 42 (by rw [List.append_nil] at hs'; rw [← hs']; simp)) star_odd
    · subst ht
      obtain ⟨e1, _, e3⟩ := first_odd hp hb star_odd star_odd hs'
      simp at e3
      exact ⟨w1, w2, by rw [e3.1]; exact g1, by rw [e3.2]; exact g2, by rw [e1]; exact g3⟩
  intro h'
  obtain ⟨pre', t', hpre, hl, _⟩ := (ends_iff n _ s).mp h'
  have ht' : (b1 ++ c' :: b2) ++ [42, h1, h2, 13, 10] = t' := by
    refine last_dollar (pre := pre) (pre' := pre') ?_ (legal_no_dollar hl) ?_
    · intro hm
      rcases List.mem_append.mp hm with hm | hm
      · have := (plain_iff 36).mp (hp' 36 hm); omega
      · rw [hex_iff] at g1 g2
        simp at hm; omega
    · rw [← hpre]
      show _ = pre ++ 36 :: (b1 ++ c' :: b2) ++ [42, h1, h2] ++ [13, 10]
      simp
  rw [← ht'] at hl
  rcases (legal_split hp' star_odd hl).1 with hh | ⟨d1, d2, x1, x2, hh, k1, k2, k3⟩
  · simp at hh
  · simp at hh
    rw [← hh.1] at k1
    rw [← hh.2] at k2
    rw [← hex_digit g1 k1, ← hex_digit g2 k2, g3, xor_append, xor_append] at k3
    have := xor_inj k3
    simp only [xorAll] at this
    rw [Nat.xor_comm c, Nat.xor_comm c'] at this
    exact hne (xor_inj this)

example : (init 32 (fun i => i)).bind (fun p =>
      (parseAll p [chars "$GPGGA,1*4B\r\n", chars "$GPGGA,2*4B\r\n"]).map Prod.snd) =
    some [chars "$GPGGA,1*4B"] := by decide +kernel

/-- Without a checksum nothing is noticed: such a sentence is taken as it is. -/
theorem C146_no_checksum (n : Nat) (b pre : List Nat) (hb : AllPlain b) (hn : b.length + 3 ≤ n) :
    Ends n (pre ++ '$'.toNat :: b ++ ['\r'.toNat, '\n'.toNat]) ('$'.toNat :: b) :=
  ⟨⟨b, [], hb, Or.inl rfl, by simp⟩, by simp; omega, pre, by simp⟩

example : (init 7 (fun i => i)).bind (fun p => (parseAll p [chars "$ABCD\r\n", chars "$ABC\r\n"]).map Prod.snd) =
    some [chars "$ABC"] := by decide +kernel

end Verif.NmeaFrame
