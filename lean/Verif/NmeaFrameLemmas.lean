import Verif.NmeaFrameModel
import Verif.NmeaFrameSpec

/-!
# Lemmas for C146
-/

namespace Verif.NmeaFrame

theorem plain_iff (c : Nat) : Plain c ↔ (32 ≤ c ∧ c ≤ 126 ∧ c ≠ 36 ∧ c ≠ 42 ∧ c ≠ 33 ∧ c ≠ 92 ∧ c ≠ 94 ∧ c ≠ 126) := Iff.rfl

theorem hex_iff (c v : Nat) :
    Hex c v ↔ ((v < 10 ∧ c = 48 + v) ∨ (10 ≤ v ∧ v < 16 ∧ (c = 65 + (v - 10) ∨ c = 97 + (v - 10)))) := Iff.rfl

theorem invalid_iff (c : Nat) : invalid c = true ↔ ¬ Plain c := by
  rw [plain_iff]
  unfold invalid invalidTable
  split
  · next h => constructor
              · intro _; omega
              · intro _; rfl
  · next h => simp only [List.contains_eq_mem, List.mem_cons, List.not_mem_nil, or_false, decide_eq_true_eq]; omega

theorem isHex_iff (c : Nat) : isHex c = true ↔ ∃ v, Hex c v := by
  unfold isHex tolower
  simp only [List.contains_eq_mem, List.mem_cons, List.not_mem_nil, or_false, decide_eq_true_eq, hex_iff]
  constructor
  · intro h
    split at h
    · exact ⟨c - 55, by omega⟩
    · by_cases hc : c < 58
      · exact ⟨c - 48, by omega⟩
      · exact ⟨c - 87, by omega⟩
  · rintro ⟨v, h⟩
    split <;> omega

theorem digit_hex {c v : Nat} (h : Hex c v) : digit c = v := by
  rw [hex_iff] at h
  unfold digit
  split
  · omega
  · split <;> omega

theorem hex_digit {c v w : Nat} (h : Hex c v) (h' : Hex c w) : v = w := by
  rw [← digit_hex h, ← digit_hex h']

theorem xor_snoc (t : List Nat) (c : Nat) : xorAll (t ++ [c]) = xorAll t ^^^ c := by
  induction t with
  | nil => simp [xorAll]
  | cons a t ih => simp only [List.cons_append, xorAll, ih, Nat.xor_assoc]

/-- The first character that is not plain is determined. -/
theorem first_odd {b b' : List Nat} {e e' : Nat} {w w' : List Nat} (h : AllPlain b) (h' : AllPlain b')
    (he : ¬ Plain e) (he' : ¬ Plain e') (heq : b ++ e :: w = b' ++ e' :: w') : b = b' ∧ e = e' ∧ w = w' := by
  induction b generalizing b' with
  | nil =>
    cases b' with
    | nil => simpa using heq
    | cons x xs =>
      simp only [List.nil_append, List.cons_append, List.cons.injEq] at heq
      exact absurd (heq.1 ▸ h' x (by simp)) he
  | cons y ys ih =>
    cases b' with
    | nil =>
      simp only [List.nil_append, List.cons_append, List.cons.injEq] at heq
      exact absurd (heq.1 ▸ h y (by simp)) he'
    | cons x xs =>
      simp only [List.cons_append, List.cons.injEq] at heq
      have := ih (fun c hc => h c (by simp [hc])) (fun c hc => h' c (by simp [hc])) heq.2
      exact ⟨by rw [heq.1, this.1], this.2⟩

/-- The rest after the body. -/
def Rest (b w : List Nat) : Prop :=
  w = [13, 10] ∨ ∃ c1 c2 v1 v2, w = [42, c1, c2, 13, 10] ∧ Hex c1 v1 ∧ Hex c2 v2 ∧ 16 * v1 + v2 = xorAll b

/-- What may follow a dollar sign, up to the end of the line. -/
def Legal (n : Nat) (t : List Nat) : Prop := ∃ b w, AllPlain b ∧ Rest b w ∧ t = b ++ w ∧ t.length + 1 ≤ n

theorem rest_odd {b w : List Nat} (h : Rest b w) : ∃ e w', w = e :: w' ∧ ¬ Plain e := by
  rcases h with h | ⟨c1, c2, v1, v2, h, _⟩
  · exact ⟨13, [10], h, by rw [plain_iff]; omega⟩
  · exact ⟨42, _, h, by rw [plain_iff]; omega⟩

/-- A legal text that starts with plain characters and another one has these as its body. -/
theorem legal_split {n : Nat} {b : List Nat} {e : Nat} {u : List Nat} (hb : AllPlain b) (he : ¬ Plain e)
    (h : Legal n (b ++ e :: u)) : Rest b (e :: u) ∧ (b ++ e :: u).length + 1 ≤ n := by
  obtain ⟨b', w, hb', hr, heq, hl⟩ := h
  obtain ⟨e', w', hw, he'⟩ := rest_odd hr
  rw [hw] at heq
  obtain ⟨h1, h2, h3⟩ := first_odd hb hb' he he' heq
  subst h1 h2 h3
  exact ⟨hw ▸ hr, hl⟩

theorem legal_no_dollar {n : Nat} {t : List Nat} (h : Legal n t) : 36 ∉ t := by
  obtain ⟨b, w, hb, hr, heq, _⟩ := h
  subst heq
  intro hm
  rcases List.mem_append.mp hm with hm | hm
  · have := (plain_iff 36).mp (hb 36 hm); omega
  · rcases hr with hr | ⟨c1, c2, v1, v2, hr, h1, h2, _⟩
    · subst hr; simp at hm
    · subst hr
      rw [hex_iff] at h1 h2
      simp at hm
      omega

/-- The buffer holds the sentence so far. -/
def Held (p : P) (t : List Nat) : Prop := p.len = t.length + 1 ∧ p.buf.take p.len = 36 :: t

/-- The state after a dollar sign and `t`. -/
def Rel (n : Nat) (p : P) (t : List Nat) : Prop :=
  (p.st = .skip ∧ ∀ c u, ¬ Legal n (t ++ c :: u)) ∨
  (p.st = .sentence ∧ Held p t ∧ AllPlain t ∧ p.ckCalc = xorAll t ∧ p.ckCount = 0 ∧ p.eolCount = 0) ∨
  (p.st = .checksum ∧ Held p t ∧ ∃ b, AllPlain b ∧ p.ckCalc = xorAll b ∧ p.eolCount = 0 ∧
    ((p.ckCount = 0 ∧ t = b ++ [42]) ∨ (p.ckCount = 1 ∧ ∃ v, Hex p.ck0 v ∧ t = b ++ [42, p.ck0]))) ∨
  (p.st = .eol ∧ Held p t ∧ ∃ b, AllPlain b ∧ p.ckCalc = xorAll b ∧
    ((p.ckCount = 0 ∧ p.eolCount = 1 ∧ t = b ++ [13]) ∨
     ∃ c1 c2 v1 v2, p.ckCount = 2 ∧ Hex c1 v1 ∧ Hex c2 v2 ∧ p.ckRead = 16 * v1 + v2 ∧
      ((p.eolCount = 0 ∧ t = b ++ [42, c1, c2]) ∨ (p.eolCount = 1 ∧ t = b ++ [42, c1, c2, 13]))))

theorem reset_ok (p : P) (st : St) (n : Nat) (h : p.buf.length = n + 1) :
    ∃ b, b.length = n + 1 ∧ reset p st = some ⟨st, 0, 0, 0, 0, 0, 0, 0, b⟩ := by
  unfold reset
  rw [show write p.buf 0 0 = some (p.buf.set 0 0) from if_pos (by omega)]
  simp only []
  rw [show write (p.buf.set 0 0) (p.buf.length - 1) 0 = some ((p.buf.set 0 0).set (p.buf.length - 1) 0) from
    if_pos (by rw [List.length_set]; omega)]
  exact ⟨_, by simp [h], rfl⟩

theorem fail_ok (p : P) (n : Nat) (h : p.buf.length = n + 1) :
    ∃ q, fail p = some (q, false) ∧ q.st = .skip ∧ q.buf.length = n + 1 := by
  obtain ⟨b, hb, he⟩ := reset_ok p .skip n h
  refine ⟨⟨.skip, 0, 0, 0, 0, 0, 0, 0, b⟩, ?_, rfl, hb⟩
  unfold fail
  rw [he]; rfl

theorem take_set (b : List Nat) (i c : Nat) (h : i < b.length) : (b.set i c).take (i + 1) = b.take i ++ [c] := by
  rw [List.set_eq_take_append_cons_drop, if_pos h, List.take_append]
  have : (b.take i).length = i := by rw [List.length_take]; omega
  rw [this, List.take_take, Nat.min_eq_right (by omega), show i + 1 - i = 1 from by omega]
  rfl

theorem append_ok (p : P) (t : List Nat) (c : Nat) (h : Held p t) (hl : p.len < p.buf.length) :
    append p c = some { p with buf := p.buf.set p.len c, len := p.len + 1 } ∧
    Held { p with buf := p.buf.set p.len c, len := p.len + 1 } (t ++ [c]) := by
  unfold append write
  rw [if_pos hl]
  refine ⟨rfl, ?_, ?_⟩
  · simp [h.1]
  · simp only []
    rw [take_set _ _ _ hl, h.2]; rfl

/-- What a step has to give. -/
def Good (n : Nat) (t : List Nat) (c : Nat) (r : Option (P × Bool)) : Prop :=
  ∃ q b, r = some (q, b) ∧ q.buf.length = n + 1 ∧ Rel n q (t ++ [c]) ∧ (b = true ↔ Legal n (t ++ [c])) ∧
    (b = true → q.buf.take q.len = 36 :: (t ++ [c]).take ((t ++ [c]).length - 2))

theorem good_fail (n : Nat) (p : P) (t : List Nat) (c : Nat) (h : p.buf.length = n + 1)
    (hd : ∀ u, ¬ Legal n (t ++ c :: u)) : Good n t c (fail p) := by
  obtain ⟨q, h1, h2, h3⟩ := fail_ok p n h
  refine ⟨q, false, h1, h3, Or.inl ⟨h2, fun x u => ?_⟩, ?_, by simp⟩
  · rw [List.append_assoc]; exact hd _
  · simpa using hd []

theorem good_go (n : Nat) (q : P) (t : List Nat) (c : Nat) (h : q.buf.length = n + 1) (hr : Rel n q (t ++ [c]))
    (hn : ¬ Legal n (t ++ [c])) : Good n t c (some (q, false)) :=
  ⟨q, false, rfl, h, hr, by simpa using hn, by simp⟩

/-- A text that ends with the body is not complete. -/
theorem plain_not_legal {n : Nat} {t : List Nat} (h : AllPlain t) : ¬ Legal n t := by
  rintro ⟨b, w, _, hr, heq, _⟩
  obtain ⟨e, w', hw, he⟩ := rest_odd hr
  exact he (h e (by rw [heq, hw]; simp))

theorem good_sentence (n : Nat) (p : P) (t : List Nat) (c : Nat) (hb : p.buf.length = n + 1) (hd : c ≠ 36)
    (hh : Held p (t ++ [c])) (hp : AllPlain t) (hx : p.ckCalc = xorAll t) (hk : p.ckCount = 0) (he : p.eolCount = 0)
    (hs : p.st = .sentence) : Good n t c (inSentence p c) := by
  unfold inSentence
  by_cases h1 : c = 42
  · rw [if_pos h1]; subst h1
    refine good_go n _ t 42 hb ?_ ?_
    · exact Or.inr (Or.inr (Or.inl ⟨rfl, hh, t, hp, hx, he, Or.inl ⟨rfl, rfl⟩⟩))
    · intro hl
      have := (legal_split hp (by rw [plain_iff]; omega) hl).1
      rcases this with h | ⟨c1, c2, v1, v2, h, _⟩ <;> simp at h
  · rw [if_neg h1]
    by_cases h2 : c = 13
    · rw [if_pos h2]; subst h2
      refine good_go n _ t 13 hb ?_ ?_
      · exact Or.inr (Or.inr (Or.inr ⟨rfl, hh, t, hp, hx, Or.inl ⟨hk, rfl, rfl⟩⟩))
      · intro hl
        have := (legal_split hp (by rw [plain_iff]; omega) hl).1
        rcases this with h | ⟨c1, c2, v1, v2, h, _⟩ <;> simp at h
    · rw [if_neg h2]
      by_cases h3 : invalid c = true
      · rw [if_pos h3]
        refine good_fail n p t c hb (fun u hl => ?_)
        have := (legal_split hp ((invalid_iff c).mp h3) hl).1
        rcases this with h | ⟨c1, c2, v1, v2, h, _⟩ <;> simp at h <;> omega
      · rw [if_neg h3]
        have hc : Plain c := Classical.byContradiction (fun x => h3 ((invalid_iff c).mpr x))
        have hp' : AllPlain (t ++ [c]) := by
          intro x hx; rcases List.mem_append.mp hx with hx | hx
          · exact hp x hx
          · simp at hx; rw [hx]; exact hc
        exact good_go n _ t c hb (Or.inr (Or.inl ⟨hs, hh, hp', by rw [xor_snoc, ← hx], hk, he⟩)) (plain_not_legal hp')

theorem star_odd : ¬ Plain 42 := by rw [plain_iff]; omega

theorem cr_odd : ¬ Plain 13 := by rw [plain_iff]; omega

theorem good_checksum (n : Nat) (p : P) (t : List Nat) (c : Nat) (hb : p.buf.length = n + 1)
    (hh : Held p (t ++ [c])) (b : List Nat) (hp : AllPlain b) (hx : p.ckCalc = xorAll b) (he : p.eolCount = 0)
    (hs : p.st = .checksum)
    (hk : (p.ckCount = 0 ∧ t = b ++ [42]) ∨ (p.ckCount = 1 ∧ ∃ v, Hex p.ck0 v ∧ t = b ++ [42, p.ck0])) :
    Good n t c (inChecksum p c) := by
  unfold inChecksum
  by_cases h1 : isHex c = false
  · rw [if_pos h1]
    have hno : ¬ ∃ v, Hex c v := fun x => by rw [(isHex_iff c).mpr x] at h1; cases h1
    refine good_fail n p t c hb (fun u hl => ?_)
    rcases hk with ⟨_, ht⟩ | ⟨_, v, _, ht⟩
    · rw [ht, List.append_assoc] at hl
      rcases (legal_split hp star_odd hl).1 with h | ⟨c1, c2, v1, v2, h, g1, g2, _⟩
      · simp at h
      · simp at h; exact hno ⟨v1, by rw [h.1]; exact g1⟩
    · rw [ht, List.append_assoc] at hl
      rcases (legal_split hp star_odd hl).1 with h | ⟨c1, c2, v1, v2, h, g1, g2, _⟩
      · simp at h
      · simp at h; exact hno ⟨v2, by rw [h.2.1]; exact g2⟩
  · rw [if_neg h1]
    have hyes : ∃ v, Hex c v := (isHex_iff c).mp (by simpa using h1)
    obtain ⟨v, hv⟩ := hyes
    rcases hk with ⟨hk, ht⟩ | ⟨hk, w, hw, ht⟩
    · rw [if_pos hk]
      refine good_go n _ t c hb ?_ ?_
      · exact Or.inr (Or.inr (Or.inl ⟨hs, hh, b, hp, hx, he, Or.inr ⟨rfl, v, hv, by rw [ht]; simp⟩⟩))
      · intro hl
        rw [ht, List.append_assoc] at hl
        rcases (legal_split hp star_odd hl).1 with h | ⟨c1, c2, v1, v2, h, _⟩ <;> simp at h
    · rw [if_neg (by omega)]
      refine good_go n _ t c hb ?_ ?_
      · refine Or.inr (Or.inr (Or.inr ⟨rfl, hh, b, hp, hx, Or.inr ⟨p.ck0, c, w, v, rfl, hw, hv, ?_, Or.inl ⟨he, by rw [ht]; simp⟩⟩⟩))
        simp only [twoDigits, digit_hex hw, digit_hex hv]
      · intro hl
        rw [ht, List.append_assoc] at hl
        rcases (legal_split hp star_odd hl).1 with h | ⟨c1, c2, v1, v2, h, _⟩ <;> simp at h

/-- The text in the buffer at the end. -/
theorem held_strip {p : P} {t : List Nat} (h : Held p t) (h2 : 2 ≤ t.length) (hl : p.len ≤ p.buf.length) :
    write p.buf (p.len - 2) 0 = some (p.buf.set (p.len - 2) 0) ∧
    (p.buf.set (p.len - 2) 0).take (p.len - 2) = 36 :: t.take (t.length - 2) := by
  obtain ⟨h1, h3⟩ := h
  refine ⟨if_pos (by omega), ?_⟩
  rw [List.take_set_of_le (Nat.le_refl _)]
  have : p.buf.take (p.len - 2) = (p.buf.take p.len).take (p.len - 2) := by
    rw [List.take_take, Nat.min_eq_left (by omega)]
  rw [this, h3, h1, show t.length + 1 - 2 = (t.length - 2) + 1 from by omega]
  rfl

theorem held_len {p : P} {t : List Nat} (h : Held p t) : p.len ≤ p.buf.length := by
  have := congrArg List.length h.2
  rw [List.length_take, List.length_cons] at this
  have := h.1
  omega

theorem good_eol (n : Nat) (p : P) (t : List Nat) (c : Nat) (hb : p.buf.length = n + 1) (hfit : t.length + 2 ≤ n)
    (hh : Held p (t ++ [c])) (b : List Nat) (hp : AllPlain b) (hx : p.ckCalc = xorAll b) (hs : p.st = .eol)
    (hk : (p.ckCount = 0 ∧ p.eolCount = 1 ∧ t = b ++ [13]) ∨
     ∃ c1 c2 v1 v2, p.ckCount = 2 ∧ Hex c1 v1 ∧ Hex c2 v2 ∧ p.ckRead = 16 * v1 + v2 ∧
      ((p.eolCount = 0 ∧ t = b ++ [42, c1, c2]) ∨ (p.eolCount = 1 ∧ t = b ++ [42, c1, c2, 13]))) :
    Good n t c (inEol p c) := by
  unfold inEol
  by_cases h0 : p.eolCount = 0
  · rw [if_pos h0]
    rcases hk with ⟨_, h, _⟩ | ⟨c1, c2, v1, v2, k1, k2, k3, k4, ⟨_, ht⟩ | ⟨h, _⟩⟩
    · omega
    · by_cases hc : c ≠ 13
      · rw [if_pos hc]
        refine good_fail n p t c hb (fun u hl => ?_)
        rw [ht, List.append_assoc] at hl
        rcases (legal_split hp star_odd hl).1 with h | ⟨c1, c2, v1, v2, h, _⟩
        · simp at h
        · simp at h; exact hc h.2.2.1
      · rw [if_neg hc]
        have hc' : c = 13 := by omega
        refine good_go n _ t c hb ?_ ?_
        · exact Or.inr (Or.inr (Or.inr ⟨hs, hh, b, hp, hx, Or.inr ⟨c1, c2, v1, v2, k1, k2, k3, k4,
            Or.inr ⟨rfl, by rw [ht, hc']; simp⟩⟩⟩))
        · intro hl
          rw [ht, List.append_assoc] at hl
          rcases (legal_split hp star_odd hl).1 with h | ⟨c1, c2, v1, v2, h, _⟩ <;> simp at h
    · omega
  · rw [if_neg h0]
    by_cases hc : c ≠ 10
    · rw [if_pos hc]
      refine good_fail n p t c hb (fun u hl => ?_)
      rcases hk with ⟨_, h, ht⟩ | ⟨c1, c2, v1, v2, k1, k2, k3, k4, ⟨h, _⟩ | ⟨_, ht⟩⟩
      · rw [ht, List.append_assoc] at hl
        rcases (legal_split hp cr_odd hl).1 with h | ⟨c1, c2, v1, v2, h, _⟩
        · simp at h; exact hc h.1
        · simp at h
      · omega
      · rw [ht, List.append_assoc] at hl
        rcases (legal_split hp star_odd hl).1 with h | ⟨c1, c2, v1, v2, h, _⟩
        · simp at h
        · simp at h; exact hc h.2.2.1
    · rw [if_neg hc]
      have hc' : c = 10 := by omega
      have ht2 : 1 ≤ t.length := by
        rcases hk with ⟨_, _, ht⟩ | ⟨c1, c2, v1, v2, _, _, _, _, ⟨_, ht⟩ | ⟨_, ht⟩⟩ <;> rw [ht] <;> simp
      obtain ⟨hw, htake⟩ := held_strip hh (by rw [List.length_append]; simpa using ht2) (held_len hh)
      rw [hw]
      simp only []
      refine ⟨_, _, rfl, by simp [hb], Or.inl ⟨rfl, fun x u hl => ?_⟩, ?_, fun _ => htake⟩
      · rw [List.append_assoc] at hl
        rcases hk with ⟨_, h, ht⟩ | ⟨c1, c2, v1, v2, k1, k2, k3, k4, ⟨h, _⟩ | ⟨_, ht⟩⟩
        · rw [ht, List.append_assoc] at hl
          rcases (legal_split hp cr_odd hl).1 with h | ⟨c1, c2, v1, v2, h, _⟩ <;> simp at h
        · omega
        · rw [ht, List.append_assoc] at hl
          rcases (legal_split hp star_odd hl).1 with h | ⟨c1, c2, v1, v2, h, _⟩ <;> simp at h
      · rcases hk with ⟨hk, h, ht⟩ | ⟨c1, c2, v1, v2, k1, k2, k3, k4, ⟨h, _⟩ | ⟨_, ht⟩⟩
        · rw [hk]
          simp only [decide_true, Bool.true_or, true_iff]
          exact ⟨b, [13, 10], hp, Or.inl rfl, by rw [ht, hc']; simp, by simp; omega⟩
        · omega
        · rw [k1]
          simp only [Nat.succ_ne_zero, decide_false, Bool.false_or, ne_eq, not_false_eq_true, decide_true, Bool.true_and,
            decide_eq_true_eq]
          rw [k4, hx]
          constructor
          · intro hsum
            exact ⟨b, [42, c1, c2, 13, 10], hp, Or.inr ⟨c1, c2, v1, v2, rfl, k2, k3, hsum⟩, by rw [ht, hc']; simp, by simp; omega⟩
          · intro hl
            rw [ht, List.append_assoc] at hl
            rcases (legal_split hp star_odd hl).1 with h | ⟨d1, d2, w1, w2, h, g1, g2, g3⟩
            · simp at h
            · simp at h
              rw [← h.1] at g1
              rw [← h.2.1] at g2
              rw [hex_digit k2 g1, hex_digit k3 g2, g3]

/-- A step with a character that is not the dollar sign. -/
theorem step_ok (n : Nat) (p : P) (t : List Nat) (c : Nat) (hb : p.buf.length = n + 1) (hd : c ≠ 36) (h : Rel n p t) :
    Good n t c (process p c) := by
  unfold process
  rw [if_neg hd]
  rcases h with ⟨hs, h⟩ | h
  · rw [if_pos hs]
    refine ⟨p, false, rfl, hb, Or.inl ⟨hs, fun x u => ?_⟩, ?_, by simp⟩
    · rw [List.append_assoc]; exact h _ _
    · simpa using h c []
  · have hns : p.st ≠ .skip := by
      rcases h with ⟨h, _⟩ | ⟨h, _⟩ | ⟨h, _⟩ <;> rw [h] <;> simp
    have hheld : Held p t := by
      rcases h with ⟨_, h, _⟩ | ⟨_, h, _⟩ | ⟨_, h, _⟩ <;> exact h
    rw [if_neg hns]
    by_cases hl : p.len ≥ p.buf.length - 1
    · rw [if_pos hl]
      refine good_fail n p t c hb (fun u hx => ?_)
      obtain ⟨_, _, _, _, _, hlen⟩ := hx
      have := hheld.1
      simp only [List.length_append, List.length_cons] at hlen
      omega
    · rw [if_neg hl]
      obtain ⟨ha, hq⟩ := append_ok p t c hheld (by omega)
      rw [ha, Option.bind_some]
      have hqb : ({ p with buf := p.buf.set p.len c, len := p.len + 1 } : P).buf.length = n + 1 := by simp [hb]
      have hlen := hheld.1
      rcases h with ⟨hs, _, h1, h2, h3, h4⟩ | ⟨hs, _, b, h1, h2, h3, h4⟩ | ⟨hs, _, b, h1, h2, h3⟩
      · unfold dispatch
        simp only [hs]
        have := good_sentence n { p with buf := p.buf.set p.len c, len := p.len + 1 } t c hqb hd hq h1 h2 h3 h4 hs
        rw [hs] at this; exact this
      · unfold dispatch
        simp only [hs]
        have := good_checksum n { p with buf := p.buf.set p.len c, len := p.len + 1 } t c hqb hq b h1 h2 h3 hs h4
        rw [hs] at this; exact this
      · unfold dispatch
        simp only [hs]
        have := good_eol n { p with buf := p.buf.set p.len c, len := p.len + 1 } t c hqb (by omega) hq b h1 h2 hs h3
        rw [hs] at this; exact this

/-- A dollar sign starts a sentence from any state. -/
theorem dollar_ok (n : Nat) (p : P) (hb : p.buf.length = n + 1) :
    ∃ q, process p 36 = some (q, false) ∧ q.buf.length = n + 1 ∧ Rel n q [] := by
  unfold process
  rw [if_pos rfl]
  obtain ⟨b, hb', he⟩ := reset_ok p .sentence n hb
  rw [he, Option.bind_some]
  have ha : append ⟨.sentence, 0, 0, 0, 0, 0, 0, 0, b⟩ 36 = some ⟨.sentence, 0, 0, 0, 0, 0, 0, 1, b.set 0 36⟩ := by
    unfold append write; rw [if_pos (show 0 < b.length by omega)]; rfl
  rw [ha]
  refine ⟨_, rfl, by simp [hb'], Or.inr (Or.inl ⟨rfl, ⟨rfl, ?_⟩, by simp [AllPlain], rfl, rfl, rfl⟩)⟩
  have := take_set b 0 36 (by omega)
  simpa using this

/-- The state after an input. -/
def Inv (n : Nat) (p : P) (cs : List Nat) : Prop :=
  p.buf.length = n + 1 ∧
  ((p.st = .skip ∧ 36 ∉ cs) ∨ ∃ pre t, cs = pre ++ 36 :: t ∧ 36 ∉ t ∧ Rel n p t)

/-- The last dollar sign is determined. -/
theorem last_dollar {pre pre' t t' : List Nat} (h : 36 ∉ t) (h' : 36 ∉ t') (heq : pre ++ 36 :: t = pre' ++ 36 :: t') : t = t' := by
  have h1 := congrArg List.reverse heq
  simp only [List.reverse_append, List.reverse_cons, List.append_assoc, List.singleton_append] at h1
  have key : ∀ (a b u v : List Nat), 36 ∉ a → 36 ∉ b → a ++ 36 :: u = b ++ 36 :: v → a = b := by
    intro a
    induction a with
    | nil =>
      intro b u v _ hb he
      cases b with
      | nil => rfl
      | cons x xs =>
        simp only [List.nil_append, List.cons_append, List.cons.injEq] at he
        exact absurd (by rw [← he.1]; simp) hb
    | cons y ys ih =>
      intro b u v ha hb he
      cases b with
      | nil =>
        simp only [List.nil_append, List.cons_append, List.cons.injEq] at he
        exact absurd (by rw [he.1]; simp) ha
      | cons x xs =>
        simp only [List.cons_append, List.cons.injEq] at he
        rw [he.1, ih xs u v (fun hm => ha (by simp [hm])) (fun hm => hb (by simp [hm])) he.2]
  have := key t.reverse t'.reverse pre.reverse pre'.reverse (by simpa using h) (by simpa using h') h1
  simpa using congrArg List.reverse this

theorem ends_iff (n : Nat) (cs s : List Nat) :
    Ends n cs s ↔ ∃ pre t, cs = pre ++ 36 :: t ∧ Legal n t ∧ s = 36 :: t.take (t.length - 2) := by
  constructor
  · rintro ⟨⟨b, t, hb, ht, hs⟩, hl, pre, hp⟩
    refine ⟨pre, b ++ t ++ [13, 10], ?_, ⟨b, t ++ [13, 10], hb, ?_, by simp, ?_⟩, ?_⟩
    · rw [hp, hs]
      show pre ++ 36 :: (b ++ t) ++ [13, 10] = _
      simp
    · rcases ht with ht | ⟨c1, c2, v1, v2, ht, h1, h2, h3⟩
      · exact Or.inl (by rw [ht]; rfl)
      · exact Or.inr ⟨c1, c2, v1, v2, by rw [ht]; rfl, h1, h2, h3⟩
    · rw [hs] at hl; simp at hl ⊢; omega
    · rw [hs]
      have : (b ++ t ++ [13, 10]).length - 2 = (b ++ t).length := by simp; omega
      rw [this, List.take_left]; rfl
  · rintro ⟨pre, t, hp, ⟨b, w, hb, hr, ht, hl⟩, hs⟩
    have hw : ∃ r, w = r ++ [13, 10] ∧ Tail b r := by
      rcases hr with hr | ⟨c1, c2, v1, v2, hr, h1, h2, h3⟩
      · exact ⟨[], by rw [hr]; rfl, Or.inl rfl⟩
      · exact ⟨[42, c1, c2], by rw [hr]; rfl, Or.inr ⟨c1, c2, v1, v2, rfl, h1, h2, h3⟩⟩
    obtain ⟨r, hw, htl⟩ := hw
    have e : t = b ++ r ++ [13, 10] := by rw [ht, hw]; simp
    have hs' : s = 36 :: (b ++ r) := by
      rw [hs, e]
      have : (b ++ r ++ [13, 10]).length - 2 = (b ++ r).length := by simp; omega
      rw [this, List.take_left]
    refine ⟨⟨b, r, hb, htl, hs'⟩, ?_, pre, ?_⟩
    · rw [hs']; rw [e] at hl; simp at hl ⊢; omega
    · rw [hp, hs', e]
      show _ = pre ++ 36 :: (b ++ r) ++ [13, 10]
      simp

/-- A step of the whole. -/
theorem inv_step (n : Nat) (p : P) (cs : List Nat) (c : Nat) (h : Inv n p cs) :
    ∃ q b, process p c = some (q, b) ∧ Inv n q (cs ++ [c]) ∧ (b = true → Ends n (cs ++ [c]) (q.buf.take q.len)) ∧
      (b = false → ∀ s, ¬ Ends n (cs ++ [c]) s) := by
  obtain ⟨hb, h⟩ := h
  by_cases hd : c = 36
  · subst hd
    obtain ⟨q, h1, h2, h3⟩ := dollar_ok n p hb
    refine ⟨q, false, h1, ⟨h2, Or.inr ⟨cs, [], rfl, by simp, h3⟩⟩, by simp, fun _ s he => ?_⟩
    obtain ⟨pre, t, hp, hl, _⟩ := (ends_iff n _ s).mp he
    have : [] = t := last_dollar (by simp) (legal_no_dollar hl) hp
    rw [← this] at hl
    obtain ⟨b, w, _, hr, ht, _⟩ := hl
    obtain ⟨e, w', hw, _⟩ := rest_odd hr
    rw [hw] at ht; simp at ht
  · rcases h with ⟨hs, hn⟩ | ⟨pre, t, hcs, hnt, hr⟩
    · refine ⟨p, false, ?_, ⟨hb, Or.inl ⟨hs, ?_⟩⟩, by simp, fun _ s he => ?_⟩
      · unfold process; rw [if_neg hd, if_pos hs]
      · simp [hn]; omega
      · obtain ⟨pre, t, hp, _, _⟩ := (ends_iff n _ s).mp he
        have : 36 ∈ cs ++ [c] := by rw [hp]; simp
        simp [hn] at this; omega
    · obtain ⟨q, b, h1, h2, h3, h4, h5⟩ := step_ok n p t c hb hd hr
      have hnt' : 36 ∉ t ++ [c] := by simp [hnt]; omega
      refine ⟨q, b, h1, ⟨h2, Or.inr ⟨pre, t ++ [c], by rw [hcs]; simp, hnt', h3⟩⟩, fun hbt => ?_, fun hbf s he => ?_⟩
      · rw [ends_iff]
        exact ⟨pre, t ++ [c], by rw [hcs]; simp, h4.mp hbt, h5 hbt⟩
      · obtain ⟨pre', t', hp, hl, _⟩ := (ends_iff n _ s).mp he
        rw [hcs, List.append_assoc] at hp
        have : t ++ [c] = t' := last_dollar hnt' (legal_no_dollar hl) hp
        rw [← this] at hl
        rw [h4.mpr hl] at hbf; cases hbf

theorem parse_inv (n : Nat) : ∀ (xs : List Nat) (p : P) (cs : List Nat) (out : List (List Nat)), Inv n p cs → Sentences n cs out →
    ∃ q out', parse p xs = some (q, out') ∧ Inv n q (cs ++ xs) ∧ Sentences n (cs ++ xs) (out ++ out') := by
  intro xs
  induction xs with
  | nil => intro p cs out h hs; exact ⟨p, [], rfl, by simpa using h, by simpa using hs⟩
  | cons x xs ih =>
    intro p cs out h hs
    obtain ⟨q, b, h1, h2, h3, h4⟩ := inv_step n p cs x h
    cases b with
    | true =>
      obtain ⟨r, o, g1, g2, g3⟩ := ih q (cs ++ [x]) (out ++ [q.buf.take q.len]) h2 (.one cs x out _ hs (h3 rfl))
      refine ⟨r, q.buf.take q.len :: o, ?_, by simpa using g2, by simpa using g3⟩
      unfold parse; rw [h1]; simp only []; rw [g1]; rfl
    | false =>
      obtain ⟨r, o, g1, g2, g3⟩ := ih q (cs ++ [x]) out h2 (.other cs x out hs (h4 rfl))
      refine ⟨r, o, ?_, by simpa using g2, by simpa using g3⟩
      unfold parse; rw [h1]; simp only []; rw [g1]; rfl

theorem parseAll_inv (n : Nat) : ∀ (xs : List (List Nat)) (p : P) (cs : List Nat) (out : List (List Nat)), Inv n p cs →
    Sentences n cs out →
    ∃ q out', parseAll p xs = some (q, out') ∧ Inv n q (cs ++ xs.flatten) ∧ Sentences n (cs ++ xs.flatten) (out ++ out') := by
  intro xs
  induction xs with
  | nil => intro p cs out h hs; exact ⟨p, [], rfl, by simpa using h, by simpa using hs⟩
  | cons x xs ih =>
    intro p cs out h hs
    obtain ⟨q, o, h1, h2, h3⟩ := parse_inv n x p cs out h hs
    obtain ⟨r, o', g1, g2, g3⟩ := ih q (cs ++ x) (out ++ o) h2 h3
    refine ⟨r, o ++ o', ?_, by simpa using g2, by simpa using g3⟩
    unfold parseAll; rw [h1]; simp only []; rw [g1]

theorem init_ok (sz : Nat) (mem : Nat → Nat) : ∃ p, init sz mem = some p ∧ Inv (bufferSize sz - 1) p [] := by
  have hp : 0 < bufferSize sz := by unfold bufferSize; split <;> omega
  obtain ⟨b, hb, he⟩ := reset_ok ⟨.skip, 0, 0, 0, 0, 0, 0, 0, (List.range (bufferSize sz)).map mem⟩ .skip (bufferSize sz - 1)
    (by simp; omega)
  exact ⟨_, he, hb, Or.inl ⟨rfl, by simp⟩⟩

theorem ends_unique {n : Nat} {cs s s' : List Nat} (h : Ends n cs s) (h' : Ends n cs s') : s = s' := by
  obtain ⟨pre, t, hp, hl, hs⟩ := (ends_iff n _ s).mp h
  obtain ⟨pre', t', hp', hl', hs'⟩ := (ends_iff n _ s').mp h'
  have : t = t' := last_dollar (legal_no_dollar hl) (legal_no_dollar hl') (hp ▸ hp')
  rw [hs, hs', this]

theorem xor_append (a b : List Nat) : xorAll (a ++ b) = xorAll a ^^^ xorAll b := by
  induction a with
  | nil => simp [xorAll]
  | cons x a ih => simp only [List.cons_append, xorAll, ih, Nat.xor_assoc]

theorem xor_inj {x c c' : Nat} (h : x ^^^ c = x ^^^ c') : c = c' := by
  have := congrArg (x ^^^ ·) h
  simpa [← Nat.xor_assoc] using this

theorem xor_foldl (b : List Nat) (a : Nat) : b.foldl (· ^^^ ·) a = a ^^^ xorAll b := by
  induction b generalizing a with
  | nil => simp [xorAll]
  | cons x b ih => rw [List.foldl_cons, ih, xorAll, Nat.xor_assoc]

theorem xor_lt {b : List Nat} (h : AllPlain b) : xorAll b < 2 ^ 7 := by
  induction b with
  | nil => simp [xorAll]
  | cons x b ih =>
    have hx := (plain_iff x).mp (h x (by simp))
    exact Nat.xor_lt_two_pow (by omega) (ih (fun c hc => h c (by simp [hc])))

theorem hexDigit_ok {d : Nat} (h : d < 16) : Hex (hexDigit d) d := by
  rw [hex_iff]; unfold hexDigit; split <;> omega

end Verif.NmeaFrame
