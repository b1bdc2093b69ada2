import Verif.InfoReqSpec
/-
Lemmas about the clean-up of a request to an info plugin.
-/
namespace Verif.InfoReq

theorem not_space_nul : isSpace nul = false := by decide

theorem takeWhile_stop {p : Char → Bool} : ∀ (s : Str) (c : Char) (r : Str),
    (∀ x ∈ s, p x = true) → p c = false → (s ++ c :: r).takeWhile p = s
  | [], c, r, _, h => by simp [h]
  | a :: s, c, r, hs, h => by
    have := takeWhile_stop s c r (fun x hx => hs x (List.mem_cons_of_mem _ hx)) h
    simp [hs a List.mem_cons_self, this]

theorem eolScan_stop : ∀ (s : Str) (c : Char) (r : Str),
    (∀ x ∈ s, ¬ (x = '\n' ∨ x = '\r' ∨ x = nul)) → (c = '\n' ∨ c = '\r' ∨ c = nul) →
    eolScan (s ++ c :: r) = some s.length
  | [], c, r, _, h => by simp only [List.nil_append, eolScan, if_pos h]; rfl
  | a :: s, c, r, hs, h => by
    have := eolScan_stop s c r (fun x hx => hs x (List.mem_cons_of_mem _ hx)) h
    simp only [List.cons_append, eolScan, if_neg (hs a List.mem_cons_self), this, Option.map_some,
      List.length_cons]

theorem takeWhile_prop (p : Char → Bool) (x : Char) : ∀ s : Str, x ∈ s.takeWhile p → p x = true
  | [], h => by cases h
  | a :: s, h => by
    rw [List.takeWhile_cons] at h
    cases ha : p a with
    | false => rw [ha] at h; cases h
    | true =>
      rw [ha] at h
      rcases List.mem_cons.mp h with rfl | h
      · exact ha
      · exact takeWhile_prop p x s h

theorem firstLine_mem {data : Str} {x : Char} (h : x ∈ firstLine data) :
    ¬ (x = '\n' ∨ x = '\r' ∨ x = nul) := by
  have := takeWhile_prop _ _ _ h
  simpa [not_or, and_assoc] using this

theorem set_append (s : Str) (c d : Char) (r : Str) :
    (s ++ c :: r).set s.length d = s ++ d :: r := by
  induction s with
  | nil => rfl
  | cons a s ih => simp [ih]

theorem takeWhile_split (p : Char → Bool) : ∀ s : Str,
    (∀ x ∈ s, p x = true) ∨ ∃ c r, s = s.takeWhile p ++ c :: r ∧ p c = false
  | [] => Or.inl (by simp)
  | a :: s => by
    cases h : p a with
    | false => exact Or.inr ⟨a, s, by simp [h], h⟩
    | true =>
      rcases takeWhile_split p s with h1 | ⟨c, r, h1, h2⟩
      · left
        intro x hx
        rcases List.mem_cons.mp hx with rfl | hx
        · exact h
        · exact h1 x hx
      · right
        refine ⟨c, r, ?_, h2⟩
        simp only [List.takeWhile_cons, h, if_true, List.cons_append]
        rw [← h1]

theorem takeWhile_all {p : Char → Bool} : ∀ s : Str, (∀ x ∈ s, p x = true) → s.takeWhile p = s
  | [], _ => rfl
  | a :: s, h => by
    simp [h a List.mem_cons_self, takeWhile_all s (fun x hx => h x (List.mem_cons_of_mem _ hx))]

theorem received_eq (data old : Str) :
    ∃ junk, received data old = data.take (bufSize - 1) ++ nul :: junk := by
  unfold received
  by_cases h : data.length < bufSize
  · rw [if_pos h, List.take_of_length_le (by unfold bufSize at h ⊢; omega)]
    exact ⟨_, rfl⟩
  · rw [if_neg h]
    exact ⟨[], rfl⟩

theorem cut_holds (data old : Str) (hdr : Bool) (h1 : data ≠ []) :
    ∃ r, cutAtFirstEOL { pre := none, mem := received data old, len := data.length, hdr := hdr } = .ok r ∧
      Holds r (firstLine (data.take (bufSize - 1))) ∧ r.hdr = hdr ∧ r.pre = none := by
  have hlen : data.length ≠ 0 := fun h => h1 (List.length_eq_zero_iff.mp h)
  obtain ⟨junk, hm⟩ := received_eq data old
  obtain ⟨d, hd⟩ : ∃ d, d = data.take (bufSize - 1) := ⟨_, rfl⟩
  rw [← hd] at hm ⊢
  have hnul : nul ∉ firstLine d := fun h => firstLine_mem h (Or.inr (Or.inr rfl))
  unfold cutAtFirstEOL
  rw [if_neg (by exact hlen)]
  simp only [hm]
  rcases takeWhile_split (fun c => !(c = '\n' || c = '\r' || c = nul)) d with h | ⟨c, r, h, hc⟩
  · have hf : firstLine d = d := takeWhile_all d h
    rw [eolScan_stop d nul _ (by intro x hx; rw [← hf] at hx; exact firstLine_mem hx) (Or.inr (Or.inr rfl))]
    refine ⟨_, rfl, ⟨hnul, ?_, junk, ?_⟩, rfl, rfl⟩
    · rw [hf]
    · rw [hf]
      exact set_append _ _ _ _
  · have hc' : c = '\n' ∨ c = '\r' ∨ c = nul := by
      by_cases g1 : c = '\n'
      · exact Or.inl g1
      · by_cases g2 : c = '\r'
        · exact Or.inr (Or.inl g2)
        · exact Or.inr (Or.inr (by simpa [g1, g2] using hc))
    have hd' : d ++ nul :: junk = firstLine d ++ c :: (r ++ nul :: junk) := by
      have h' : d = firstLine d ++ c :: r := h
      generalize firstLine d = f at h'
      rw [h', List.append_assoc]; rfl
    have hs := eolScan_stop (firstLine d) c (r ++ nul :: junk) (fun x hx => firstLine_mem hx) hc'
    rw [hd', hs]
    exact ⟨_, rfl, ⟨hnul, rfl, _, set_append _ _ _ _⟩, rfl, rfl⟩

theorem trimR_concat (p : Char → Bool) (s : Str) (c : Char) :
    trimR p (s ++ [c]) = if p c then trimR p s else s ++ [c] := by
  unfold trimR
  rw [List.reverse_append, List.reverse_singleton, List.singleton_append, List.dropWhile_cons]
  cases p c <;> simp

/-- What the loop does when it has stripped everything. -/
def emptied (p : Char → Bool) (pre : Option Char) : Bool :=
  match pre with
  | none => false
  | some c => !p c || c = nul

theorem stripLoop_holds (p : Char → Bool) (pre : Option Char) :
    ∀ (n : Nat) (s junk : Str) (hdr : Bool), s.length = n → nul ∉ s →
    (trimR p s ≠ [] ∨ emptied p pre = true →
      ∃ r, stripLoop p pre n (s ++ nul :: junk) hdr = .ok r ∧ Holds r (trimR p s) ∧ r.hdr = hdr ∧ r.pre = pre) ∧
    (trimR p s = [] → emptied p pre = false → stripLoop p pre n (s ++ nul :: junk) hdr = .ub) := by
  intro n
  induction n with
  | zero =>
    intro s junk hdr hl hn
    have hs : s = [] := List.length_eq_zero_iff.mp hl
    subst hs
    unfold stripLoop emptied
    cases pre with
    | none =>
      refine ⟨?_, fun _ _ => rfl⟩
      rintro (h | h)
      · exact absurd rfl h
      · cases h
    | some c =>
      simp only []
      constructor
      · rintro (h | h)
        · exact absurd rfl h
        · rw [if_neg]
          · exact ⟨_, rfl, ⟨hn, rfl, junk, rfl⟩, rfl, rfl⟩
          · rintro ⟨h1, h2⟩
            simp [h1, h2] at h
      · intro _ h
        rw [if_pos]
        simpa using h
  | succ n ih =>
    intro s junk hdr hl hn
    rcases List.eq_nil_or_concat s with rfl | ⟨s', c, rfl⟩
    · cases hl
    · simp only [List.concat_eq_append] at hl hn ⊢
      have hl' : s'.length = n := by simp at hl; exact hl
      have hn' : nul ∉ s' := fun h => hn (by simp [h])
      have hc : c ≠ nul := fun h => hn (by simp [h])
      have hg : (s' ++ [c] ++ nul :: junk)[n]? = some c := by
        rw [List.append_assoc, List.getElem?_append_right (by omega), hl']
        simp
      have hset : (s' ++ [c] ++ nul :: junk).set n nul = s' ++ nul :: (nul :: junk) := by
        rw [List.append_assoc, ← hl']
        exact set_append _ _ _ _
      unfold stripLoop
      rw [trimR_concat]
      simp only [hg]
      by_cases hp : p c = true
      · rw [if_pos hp, if_pos ⟨hp, hc⟩, hset]
        exact ih s' (nul :: junk) hdr hl' hn'
      · rw [if_neg hp, if_neg (fun h => hp h.1)]
        constructor
        · intro _
          refine ⟨_, rfl, ⟨hn, ?_, junk, rfl⟩, rfl, rfl⟩
          simp [hl']
        · intro h
          simp at h

theorem strip_holds (p : Char → Bool) (r : Rq) (s : Str) (h : Holds r s)
    (ht : s = [] ∨ trimR p s ≠ [] ∨ emptied p r.pre = true) :
    ∃ r', strip p r = .ok r' ∧ Holds r' (trimR p s) ∧ r'.hdr = r.hdr ∧ r'.pre = r.pre := by
  obtain ⟨h1, h2, junk, h3⟩ := h
  unfold strip
  by_cases h0 : r.len = 0
  · rw [if_pos h0]
    have : s = [] := List.length_eq_zero_iff.mp (h2.symm.trans h0)
    subst this
    exact ⟨r, rfl, ⟨h1, h2, junk, h3⟩, rfl, rfl⟩
  · rw [if_neg h0, h3]
    have hs : s ≠ [] := by
      intro h; subst h; exact h0 h2
    exact (stripLoop_holds p r.pre r.len s junk r.hdr h2.symm h1).1 (ht.resolve_left hs)

theorem strip_blank (p : Char → Bool) (r : Rq) (s : Str) (h : Holds r s)
    (hs : s ≠ []) (ht : trimR p s = []) (hp : emptied p r.pre = false) : strip p r = .ub := by
  obtain ⟨h1, h2, junk, h3⟩ := h
  unfold strip
  have h0 : r.len ≠ 0 := by
    rw [h2]; exact fun h => hs (List.length_eq_zero_iff.mp h)
  rw [if_neg h0, h3]
  exact (stripLoop_holds p r.pre r.len s junk r.hdr h2.symm h1).2 ht hp

theorem decr_succ (n : Nat) (h : n < 2 ^ 64) : decr (n + 1) = n := by
  unfold decr
  omega

/-- The character in front of the request after the blanks `s` starts with were
skipped. -/
def preAfter (pre : Option Char) : Str → Option Char
  | [] => pre
  | c :: s => if isSpace c then preAfter (some c) s else pre

theorem skipLoop_holds : ∀ (s : Str) (pre : Option Char) (junk : Str) (hdr : Bool),
    nul ∉ s → s.length < 2 ^ 64 →
    ∃ r, skipLoop pre (s ++ nul :: junk) s.length hdr = .ok r ∧ Holds r (trimL isSpace s) ∧ r.hdr = hdr ∧
      r.pre = preAfter pre s
  | [], pre, junk, hdr, h, _ => by
    refine ⟨_, rfl, ⟨h, rfl, junk, rfl⟩, rfl, rfl⟩
  | c :: s, pre, junk, hdr, h, hl => by
    have hc : c ≠ nul := fun e => h (by simp [e])
    have hn : nul ∉ s := fun e => h (by simp [e])
    have hl' : s.length < 2 ^ 64 := by simp only [List.length_cons] at hl; omega
    simp only [List.cons_append, skipLoop, trimL, List.dropWhile_cons, preAfter]
    by_cases hp : isSpace c = true
    · rw [if_pos ⟨hp, hc⟩, if_pos hp, if_pos hp, List.length_cons, decr_succ _ hl']
      exact skipLoop_holds s (some c) junk hdr hn hl'
    · rw [if_neg (fun e => hp e.1), if_neg hp, if_neg hp]
      exact ⟨_, rfl, ⟨h, rfl, junk, rfl⟩, rfl, rfl⟩

theorem skip_holds (r : Rq) (s : Str) (h : Holds r s) (hl : s.length < 2 ^ 64) :
    ∃ r', skipLeading r = .ok r' ∧ Holds r' (trimL isSpace s) ∧ r'.hdr = r.hdr ∧
      r'.pre = preAfter r.pre s := by
  obtain ⟨h1, h2, junk, h3⟩ := h
  unfold skipLeading
  by_cases h0 : r.len = 0
  · rw [if_pos h0]
    have : s = [] := List.length_eq_zero_iff.mp (h2.symm.trans h0)
    subst this
    exact ⟨r, rfl, ⟨h1, h2, junk, h3⟩, rfl, rfl⟩
  · rw [if_neg h0, h3, h2]
    exact skipLoop_holds s r.pre junk r.hdr h1 hl

theorem oneSlash_of (n : Nat) : ∀ (s : Str) (pre : Option Char) (junk : Str) (hdr : Bool), s.length = n → n < 2 ^ 64 →
    nul ∉ s → ∀ m, s = '/' :: m →
    ∃ r t, slashLoop pre (s ++ nul :: junk) s.length hdr = .ok r ∧ Holds r t ∧ OneSlash s t ∧ r.hdr = hdr := by
  induction n with
  | zero => intro s _ _ _ h _ _ m hm; subst hm; cases h
  | succ n ih =>
    intro s pre junk hdr hl hb hn m hm
    subst hm
    cases m with
    | nil =>
      refine ⟨_, ['/'], rfl, ⟨hn, rfl, junk, rfl⟩, ?_, rfl⟩
      exact OneSlash.some 0 [] (by intro r' h; cases h)
    | cons b m =>
      simp only [List.cons_append, slashLoop]
      by_cases hbs : b = '/'
      · subst hbs
        rw [if_pos rfl]
        have hl' : ('/' :: m : Str).length = n := by simpa using hl
        obtain ⟨r, t, h1, h2, h3, h4⟩ := ih ('/' :: m) (some '/') junk hdr hl' (by omega)
          (fun h => hn (List.mem_cons_of_mem _ h)) m rfl
        refine ⟨r, t, ?_, h2, ?_, h4⟩
        · rw [show ('/' :: '/' :: m : Str).length = ('/' :: m : Str).length + 1 from rfl,
            decr_succ _ (by omega)]
          exact h1
        · obtain ⟨u, hu⟩ : ∃ u : Str, u = '/' :: m := ⟨_, rfl⟩
          rw [← hu] at h3
          cases h3 with
          | none _ h => exact absurd hu (h m)
          | some k q hq =>
            have : '/' :: '/' :: m = List.replicate (k + 1 + 1) '/' ++ q := by
              rw [← hu, List.replicate_succ]; rfl
            rw [this]
            exact OneSlash.some (k + 1) q hq
      · rw [if_neg hbs]
        refine ⟨_, '/' :: b :: m, rfl, ⟨hn, rfl, junk, rfl⟩, ?_, rfl⟩
        exact OneSlash.some 0 (b :: m) (by intro r' h; injection h with h; exact hbs h)

theorem slashes_hold (r : Rq) (s : Str) (h : Holds r s) (hl : s.length < 2 ^ 64) :
    ∃ r' t, skipSlashes r = .ok r' ∧ Holds r' t ∧ OneSlash s t ∧ r'.hdr = r.hdr := by
  obtain ⟨h1, h2, junk, h3⟩ := h
  have hself : Holds r s := ⟨h1, h2, junk, h3⟩
  unfold skipSlashes
  by_cases h0 : r.len = 0
  · rw [if_pos h0]
    have : s = [] := List.length_eq_zero_iff.mp (h2.symm.trans h0)
    subst this
    exact ⟨r, [], rfl, hself, OneSlash.none [] (by intro r h; cases h), rfl⟩
  · rw [if_neg h0]
    cases s with
    | nil => exact absurd h2 h0
    | cons a m =>
      simp only [h3, List.cons_append]
      by_cases ha : a = '/'
      · subst ha
        rw [if_neg (by rintro (h | h); exact absurd h (by decide); exact h rfl)]
        obtain ⟨b, rest, hbr⟩ : ∃ b rest, m ++ nul :: junk = b :: rest := by
          cases m with
          | nil => exact ⟨_, _, rfl⟩
          | cons b m => exact ⟨_, _, rfl⟩
        simp only [hbr]
        by_cases hb : b = '/'
        · rw [if_neg (fun h => h hb)]
          have := oneSlash_of _ ('/' :: m) r.pre junk r.hdr rfl hl h1 m rfl
          rw [h2, ← hbr]
          obtain ⟨r', t, g1, g2, g3, g4⟩ := this
          exact ⟨r', t, g1, g2, g3, g4⟩
        · rw [if_pos hb]
          refine ⟨r, _, rfl, hself, OneSlash.some 0 m ?_, rfl⟩
          intro r' hr'
          subst hr'
          injection hbr with hbr
          exact hb hbr.symm
      · rw [if_pos (Or.inr ha)]
        exact ⟨r, _, rfl, hself, OneSlash.none _ (by intro r h; injection h with h; exact ha h), rfl⟩

theorem sameCase_iff : ∀ (w m : Str), sameCase w m = true ↔ ∃ a b, m = a ++ b ∧ ciEq a w
  | [], m => by
    simp only [sameCase, true_iff]
    exact ⟨[], m, rfl, rfl⟩
  | w :: ws, [] => by
    simp only [sameCase, Bool.false_eq_true, false_iff]
    rintro ⟨a, b, h, h'⟩
    have : a = [] := by
      cases a with
      | nil => rfl
      | cons _ _ => cases h
    subst this
    cases h'
  | w :: ws, c :: cs => by
    have ih := sameCase_iff ws cs
    simp only [sameCase, Bool.and_eq_true, decide_eq_true_eq, ih]
    constructor
    · rintro ⟨h, a, b, h1, h2⟩
      refine ⟨c :: a, b, by rw [h1]; rfl, ?_⟩
      unfold ciEq at h2 ⊢
      simp only [List.map_cons, h, h2]
    · rintro ⟨a, b, h1, h2⟩
      cases a with
      | nil => cases h2
      | cons a0 a =>
        unfold ciEq at h2
        simp only [List.map_cons, List.cons.injEq] at h2
        simp only [List.cons_append, List.cons.injEq] at h1
        exact ⟨by rw [h1.1]; exact h2.1, a, b, h1.2, h2.2⟩

theorem ciEq_length {a b : Str} (h : ciEq a b) : a.length = b.length := by
  have := congrArg List.length h
  simpa using this

theorem lower_nul {c : Char} (h : lower c = lower nul) : c = nul := by
  unfold lower at h
  by_cases h1 : 65 ≤ c.toNat ∧ c.toNat ≤ 90
  · rw [if_pos h1, if_neg (by decide)] at h
    have hv : (c.toNat + 32).isValidChar := Or.inl (by omega)
    have h2 := congrArg Char.toNat h
    have h3 : (Char.ofNat (c.toNat + 32)).toNat = c.toNat + 32 := by
      unfold Char.ofNat
      rw [dif_pos hv]
      rfl
    rw [h3] at h2
    have h4 : nul.toNat = 0 := by decide
    omega
  · rw [if_neg h1, if_neg (by decide)] at h
    exact h

theorem no_nul {a w : Str} (h : ciEq a w) (hw : nul ∉ w) : nul ∉ a := by
  intro hm
  have : lower nul ∈ a.map lower := List.mem_map_of_mem hm
  rw [h] at this
  obtain ⟨c, hc, he⟩ := List.mem_map.mp this
  exact hw (lower_nul he ▸ hc)

/-- A text without the terminator at the start of the memory is at the start of
the string. -/
theorem split_prefix {s junk a b : Str} (h : s ++ nul :: junk = a ++ b) (ha : nul ∉ a) :
    ∃ rest, s = a ++ rest := by
  rcases List.append_eq_append_iff.mp h with ⟨c, h1, h2⟩ | ⟨c, h1, _⟩
  · cases c with
    | nil => exact ⟨[], by simpa using h1.symm⟩
    | cons d c =>
      injection h2 with h2 _
      exfalso
      apply ha
      rw [h1, ← h2]
      simp
  · exact ⟨c, h1⟩

theorem sameCase_len (w a b : Str) (h : a.length = w.length) :
    sameCase w (a ++ b) = true ↔ ciEq a w := by
  rw [sameCase_iff]
  constructor
  · rintro ⟨a', b', h1, h2⟩
    have := (List.append_inj h1 (h.trans (ciEq_length h2).symm)).1
    rw [this]; exact h2
  · intro h2; exact ⟨a, b, rfl, h2⟩

theorem charIs_at (a : Str) (c : Char) (b : Str) (p : Char → Bool) (i : Nat) (h : a.length = i) :
    charIs (a ++ c :: b) i p = p c := by
  unfold charIs
  rw [List.getElem?_append_right (by omega)]
  simp [h]

theorem decompose (s : Str) (h : 14 ≤ s.length) :
    ∃ g b1 x b2 v d, s = g ++ b1 :: (x ++ b2 :: (v ++ [d])) ∧ g.length = 3 ∧ v.length = 7 ∧ x ≠ [] := by
  have e1 : s = s.take 3 ++ s.drop 3 := (List.take_append_drop 3 s).symm
  have l1 : (s.take 3).length = 3 := by rw [List.length_take]; omega
  cases h2 : s.drop 3 with
  | nil => have := congrArg List.length h2; simp at this; omega
  | cons b1 r =>
    have lr : r.length + 1 = s.length - 3 := by
      have := congrArg List.length h2; simp at this; omega
    have e2 : r = r.take (r.length - 9) ++ r.drop (r.length - 9) := (List.take_append_drop _ r).symm
    cases h3 : r.drop (r.length - 9) with
    | nil => have := congrArg List.length h3; simp at this; omega
    | cons b2 q =>
      have lq : q.length = 8 := by
        have := congrArg List.length h3; simp at this; omega
      rcases List.eq_nil_or_concat q with rfl | ⟨v, d, rfl⟩
      · cases lq
      · simp only [List.concat_eq_append] at *
        refine ⟨s.take 3, b1, r.take (r.length - 9), b2, v, d, ?_, l1, by simp at lq; exact lq, ?_⟩
        · rw [← h3, ← e2, ← h2]; exact e1
        · intro hx
          have := congrArg List.length hx
          simp at this
          omega

theorem parse_holds (r : Rq) (s : Str) (h : Holds r s) (hs : s ≠ []) :
    (∀ x, IsGet s x → ∃ r', parseRequest r = .ok r' ∧ Holds r' x ∧ r'.hdr = true ∧
      ∃ b, r'.pre = some b ∧ isSpace b = true) ∧
    ((¬ ∃ x, IsGet s x) → ∃ r', parseRequest r = .ok r' ∧ Holds r' s ∧ r'.hdr = false ∧ r'.pre = r.pre) := by
  have hself := h
  obtain ⟨h1, h2, junk, h3⟩ := h
  have h0 : r.len ≠ 0 := by rw [h2]; exact fun h => hs (List.length_eq_zero_iff.mp h)
  have hgetlen : ∀ x, IsGet s x → 14 ≤ s.length := by
    rintro x ⟨g, b1, b2, v, d, e, hx, hg, _, _, hv, _⟩
    have l1 := ciEq_length hg
    have l2 := ciEq_length hv
    have l3 : x.length ≠ 0 := fun h => hx (List.length_eq_zero_iff.mp h)
    have l4 : ("get".toList).length = 3 := by decide
    have l5 : ("http/1.".toList).length = 7 := by decide
    rw [e]
    simp only [List.length_append, List.length_cons, List.length_nil]
    omega
  unfold parseRequest
  rw [if_neg h0]
  by_cases hl : s.length < 14
  · rw [if_pos (Or.inl (by omega))]
    constructor
    · intro x hx
      have := hgetlen x hx
      omega
    · intro _
      exact ⟨_, rfl, ⟨h1, h2, junk, h3⟩, rfl, rfl⟩
  · obtain ⟨g, b1, x, b2, v, d, e, lg, lv, hx⟩ := decompose s (by omega)
    have ls : s.length = x.length + 13 := by
      rw [e]; simp only [List.length_append, List.length_cons, List.length_nil]; omega
    have c1 : sameCase ['G', 'E', 'T'] r.mem = true ↔ ciEq g "get".toList := by
      rw [h3, e, List.append_assoc, sameCase_len _ _ _ (by simpa using lg)]
      unfold ciEq
      rw [show List.map lower ['G', 'E', 'T'] = List.map lower "get".toList from by decide]
    have c2 : charIs r.mem 3 isSpace = isSpace b1 := by
      rw [h3, e, List.append_assoc, List.cons_append, charIs_at _ _ _ _ _ lg]
    have c3 : charIs r.mem (r.len - 9) isSpace = isSpace b2 := by
      have : r.mem = (g ++ b1 :: x) ++ b2 :: (v ++ [d] ++ nul :: junk) := by
        rw [h3, e]; simp
      rw [this, charIs_at _ _ _ _ _ (by simp only [List.length_append, List.length_cons]; omega)]
    have c4 : sameCase ['H', 'T', 'T', 'P', '/', '1', '.'] (from_ r.mem (r.len - 8)) = true ↔
        ciEq v "http/1.".toList := by
      have : r.mem = (g ++ b1 :: (x ++ [b2])) ++ (v ++ (d :: nul :: junk)) := by
        rw [h3, e]; simp
      unfold from_
      rw [this, List.drop_left' (by simp only [List.length_append, List.length_cons, List.length_nil]; omega),
        sameCase_len _ _ _ (by simpa using lv)]
      unfold ciEq
      rw [show List.map lower ['H', 'T', 'T', 'P', '/', '1', '.'] = List.map lower "http/1.".toList from by decide]
    have c5 : charIs r.mem (r.len - 1) (fun c => c = '1' || c = '0') = true ↔ (d = '0' ∨ d = '1') := by
      have : r.mem = (g ++ b1 :: (x ++ b2 :: v)) ++ d :: (nul :: junk) := by
        rw [h3, e]; simp
      rw [this, charIs_at _ _ _ _ _ (by simp only [List.length_append, List.length_cons]; omega)]
      simp only [Bool.or_eq_true, decide_eq_true_eq]
      exact or_comm
    by_cases hall : ciEq g "get".toList ∧ isSpace b1 = true ∧ isSpace b2 = true ∧
        ciEq v "http/1.".toList ∧ (d = '0' ∨ d = '1')
    · obtain ⟨g1, g2, g3, g4, g5⟩ := hall
      rw [if_neg (by
        rintro (k | k | k | k | k | k)
        · omega
        · exact k (c1.mpr g1)
        · exact k (c2.trans g2)
        · exact k (c3.trans g3)
        · exact k (c4.mpr g4)
        · exact k (c5.mpr g5))]
      have hmem : r.mem = (g ++ [b1]) ++ (x ++ b2 :: (v ++ [d] ++ nul :: junk)) := by
        rw [h3, e]; simp
      have hdrop : r.mem.drop 4 = x ++ b2 :: (v ++ [d] ++ nul :: junk) := by
        rw [hmem]
        exact List.drop_left' (by simp only [List.length_append, List.length_cons, List.length_nil]; omega)
      have hlen13 : r.len - 13 = x.length := by omega
      rw [hdrop, if_pos (by simp only [List.length_append, List.length_cons]; omega)]
      have hnx : nul ∉ x := fun hm => h1 (by rw [e]; simp [hm])
      have hres : Holds (Rq.mk r.mem[3]? ((x ++ b2 :: (v ++ [d] ++ nul :: junk)).set (r.len - 13) nul)
          (r.len - 13) true) x := by
        refine ⟨hnx, hlen13, v ++ [d] ++ nul :: junk, ?_⟩
        simp only [hlen13]
        exact set_append _ _ _ _
      constructor
      · rintro x' ⟨g', b1', b2', v', d', e', hx', hg', hb1', hb2', hv', hd'⟩
        have lg' : g'.length = 3 := by rw [ciEq_length hg']; decide
        have lv' : v'.length = 7 := by rw [ciEq_length hv']; decide
        have ee := e.symm.trans e'
        have i1 := List.append_inj ee (lg.trans lg'.symm)
        obtain ⟨_, i2⟩ := i1
        injection i2 with _ i2
        have i3 := List.append_inj' i2 (by simp [lv, lv'])
        rw [← i3.1]
        refine ⟨_, rfl, hres, rfl, b1, ?_, g2⟩
        show r.mem[3]? = some b1
        rw [h3, e, List.append_assoc, List.cons_append, List.getElem?_append_right (by omega)]
        simp [lg]
      · intro hno
        exact absurd ⟨x, g, b1, b2, v, d, e, hx, g1, g2, g3, g4, g5⟩ hno
    · rw [if_pos (by
        by_cases k1 : ciEq g "get".toList
        · by_cases k2 : isSpace b1 = true
          · by_cases k3 : isSpace b2 = true
            · by_cases k4 : ciEq v "http/1.".toList
              · by_cases k5 : d = '0' ∨ d = '1'
                · exact absurd ⟨k1, k2, k3, k4, k5⟩ hall
                · exact Or.inr (Or.inr (Or.inr (Or.inr (Or.inr (fun k => k5 (c5.mp k))))))
              · exact Or.inr (Or.inr (Or.inr (Or.inr (Or.inl (fun k => k4 (c4.mp k))))))
            · exact Or.inr (Or.inr (Or.inr (Or.inl (fun k => k3 (c3.symm.trans k)))))
          · exact Or.inr (Or.inr (Or.inl (fun k => k2 (c2.symm.trans k))))
        · exact Or.inr (Or.inl (fun k => k1 (c1.mp k))))]
      constructor
      · rintro x' ⟨g', b1', b2', v', d', e', hx', hg', hb1', hb2', hv', hd'⟩
        exfalso
        have lg' : g'.length = 3 := by rw [ciEq_length hg']; decide
        have lv' : v'.length = 7 := by rw [ciEq_length hv']; decide
        have ee := e.symm.trans e'
        have i1 := List.append_inj ee (lg.trans lg'.symm)
        obtain ⟨i0, i2⟩ := i1
        injection i2 with i4 i2
        have i3 := List.append_inj' i2 (by simp [lv, lv'])
        obtain ⟨_, i5⟩ := i3
        injection i5 with i6 i7
        have i8 := List.append_inj i7 (lv.trans lv'.symm)
        have i9 : d = d' := by
          have := i8.2
          injection this
        exact hall ⟨i0 ▸ hg', i4 ▸ hb1', i6 ▸ hb2', i8.1 ▸ hv', i9 ▸ hd'⟩
      · intro _
        exact ⟨_, rfl, ⟨h1, h2, junk, h3⟩, rfl, rfl⟩

theorem lower_slash {c : Char} (h : lower c = lower '/') : c = '/' := by
  unfold lower at h
  by_cases h1 : 65 ≤ c.toNat ∧ c.toNat ≤ 90
  · rw [if_pos h1, if_neg (by decide)] at h
    have hv : (c.toNat + 32).isValidChar := Or.inl (by omega)
    have h2 := congrArg Char.toNat h
    have h3 : (Char.ofNat (c.toNat + 32)).toNat = c.toNat + 32 := by
      unfold Char.ofNat
      rw [dif_pos hv]
      rfl
    rw [h3] at h2
    have h4 : ('/' : Char).toNat = 47 := by decide
    omega
  · rw [if_neg h1, if_neg (by decide)] at h
    exact h

theorem prefix_holds (w : Str) (hdr : Bool) (r : Rq) (s : Str) (h : Holds r s)
    (hw : nul ∉ w) (hw0 : w ≠ []) :
    (∃ r' rest, prefixStep w hdr r = some r' ∧ HasPrefix w s rest ∧ Holds r' rest ∧ r'.hdr = hdr) ∨
    (prefixStep w hdr r = none ∧ ¬ ∃ rest, HasPrefix w s rest) := by
  obtain ⟨h1, h2, junk, h3⟩ := h
  have hwl : w.length ≠ 0 := fun h => hw0 (List.length_eq_zero_iff.mp h)
  unfold prefixStep
  by_cases c1 : w.length + 1 ≤ r.len ∧ sameCase (w ++ ['/']) r.mem = true
  · left
    rw [if_pos c1]
    obtain ⟨a, b, e, ha⟩ := (sameCase_iff _ _).mp c1.2
    have hna : nul ∉ a := no_nul ha (by
      intro hm
      rcases List.mem_append.mp hm with hm | hm
      · exact hw hm
      · exact absurd (List.mem_singleton.mp hm) (by decide))
    obtain ⟨rest, hrest⟩ := split_prefix (h3.symm.trans e) hna
    rcases List.eq_nil_or_concat a with rfl | ⟨a', c, rfl⟩
    · have := ciEq_length ha
      simp at this
    · simp only [List.concat_eq_append] at *
      have hla : a'.length = w.length := by
        have := ciEq_length ha
        simp only [List.length_append, List.length_cons, List.length_nil] at this
        omega
      unfold ciEq at ha
      rw [List.map_append, List.map_append] at ha
      obtain ⟨ha1, ha2⟩ := List.append_inj ha (by simpa using hla)
      have hc : c = '/' := lower_slash (by simpa using ha2)
      subst hc
      have hs' : s = a' ++ '/' :: rest := by rw [hrest]; simp
      refine ⟨_, '/' :: rest, rfl, ⟨a', hs', ha1, Or.inr ⟨rest, rfl⟩⟩, ⟨?_, ?_, junk, ?_⟩, rfl⟩
      · intro hm; exact h1 (by rw [hs']; exact List.mem_append_right _ hm)
      · show r.len - w.length = _
        rw [h2, hs', List.length_append]; omega
      · show r.mem.drop w.length = _
        rw [h3, hs', List.append_assoc]
        exact List.drop_left' hla
  · rw [if_neg c1]
    by_cases c2 : r.len = w.length ∧ sameCase w r.mem = true
    · left
      rw [if_pos c2]
      have hls : s.length = w.length := h2.symm.trans c2.1
      have hci : ciEq s w := (sameCase_len w s (nul :: junk) hls).mp (by rw [← h3]; exact c2.2)
      refine ⟨_, [], rfl, ⟨s, by simp, hci, Or.inl rfl⟩, ⟨by simp, rfl, ?_⟩, rfl⟩
      cases s with
      | nil => simp at hls; omega
      | cons c s => exact ⟨s ++ nul :: junk, by simp [h3]⟩
    · right
      rw [if_neg c2]
      refine ⟨rfl, ?_⟩
      rintro ⟨rest, a, e, ha, hr | ⟨q, hr⟩⟩
      · subst hr
        rw [List.append_nil] at e
        subst e
        exact c2 ⟨h2.trans (ciEq_length ha), by rw [h3]; exact (sameCase_len w s _ (ciEq_length ha)).mpr ha⟩
      · subst hr
        apply c1
        have hla := ciEq_length ha
        refine ⟨by rw [h2, e, List.length_append, List.length_cons]; omega, ?_⟩
        have : r.mem = (a ++ ['/']) ++ (q ++ nul :: junk) := by rw [h3, e]; simp
        rw [this, sameCase_len _ _ _ (by simp [hla])]
        unfold ciEq at ha ⊢
        rw [List.map_append, List.map_append, ha]

theorem prefixes_hold (r : Rq) (s : Str) (h : Holds r s) :
    ∃ r' t, checkPrefixes r = .ok r' ∧ Holds r' t ∧ Prefixed r.hdr s r'.hdr t := by
  unfold checkPrefixes
  have hno : ∀ w : Str, w ≠ [] → ¬ ∃ rest, HasPrefix w [] rest := by
    rintro w hw ⟨rest, a, e, ha, _⟩
    have : a = [] := by
      cases a with
      | nil => rfl
      | cons _ _ => cases e
    subst this
    have := ciEq_length ha
    exact hw (List.length_eq_zero_iff.mp this.symm)
  by_cases h0 : r.len = 0
  · rw [if_pos h0]
    have : s = [] := List.length_eq_zero_iff.mp (h.2.1.symm.trans h0)
    subst this
    exact ⟨r, [], rfl, h, Prefixed.other (hno _ (by decide)) (hno _ (by decide))⟩
  · rw [if_neg h0]
    rcases prefix_holds ['/', 'h', 't', 't', 'p'] true r s h (by decide) (by decide) with
      ⟨r', rest, g1, g2, g3, g4⟩ | ⟨g1, g2⟩
    · simp only [g1]
      refine ⟨r', rest, rfl, g3, ?_⟩
      rw [g4]
      exact Prefixed.http rest g2
    · simp only [g1]
      rcases prefix_holds ['/', 'p', 'l', 'a', 'i', 'n'] false r s h (by decide) (by decide) with
        ⟨r', rest, k1, k2, k3, k4⟩ | ⟨k1, k2⟩
      · simp only [k1]
        refine ⟨r', rest, rfl, k3, ?_⟩
        rw [k4]
        exact Prefixed.plain rest k2
      · simp only [k1]
        exact ⟨r, s, rfl, h, Prefixed.other g2 k2⟩

theorem trimL_nil {s : Str} (h : trimL isSpace s = []) : trimR isSpace s = [] := by
  have hall : ∀ t : Str, t.dropWhile isSpace = [] → ∀ c ∈ t, isSpace c = true := by
    intro t
    induction t with
    | nil => intro _ c hc; cases hc
    | cons a t ih =>
      intro ht c hc
      rw [List.dropWhile_cons] at ht
      cases ha : isSpace a with
      | false => rw [ha] at ht; cases ht
      | true =>
        rw [ha] at ht
        rcases List.mem_cons.mp hc with rfl | hc
        · exact ha
        · exact ih ht c hc
  have hb : ∀ t : Str, (∀ c ∈ t, isSpace c = true) → t.dropWhile isSpace = [] := by
    intro t
    induction t with
    | nil => intro _; rfl
    | cons a t ih =>
      intro ht
      rw [List.dropWhile_cons, if_pos (ht a List.mem_cons_self)]
      exact ih (fun c hc => ht c (List.mem_cons_of_mem _ hc))
  unfold trimR
  rw [hb s.reverse (fun c hc => hall s h c (List.mem_reverse.mp hc))]
  rfl

theorem trimR_trimR (p : Char → Bool) (s : Str) : trimR p (trimR p s) = trimR p s := by
  unfold trimR
  rw [List.reverse_reverse]
  congr 1
  generalize s.reverse = t
  induction t with
  | nil => rfl
  | cons a t ih =>
    rw [List.dropWhile_cons]
    cases h : p a with
    | true => exact ih
    | false => simp [h]

theorem trimR_trimL (s : Str) : trimR isSpace (trimL isSpace s) = trimL isSpace (trimR isSpace s) ∨
    trimR isSpace s = [] := by
  induction s with
  | nil => exact Or.inr rfl
  | cons a t ih =>
    cases ha : isSpace a with
    | false =>
      left
      have h1 : trimL isSpace (a :: t) = a :: t := by unfold trimL; simp [ha]
      have h2 : ∃ u, trimR isSpace (a :: t) = a :: u := by
        unfold trimR
        rw [List.reverse_cons]
        generalize t.reverse = q
        have : ∃ q', (q ++ [a]).dropWhile isSpace = q' ++ [a] := by
          induction q with
          | nil => exact ⟨[], by simp [ha]⟩
          | cons b q ih =>
            rw [List.cons_append, List.dropWhile_cons]
            cases isSpace b with
            | true => exact ih
            | false => exact ⟨b :: q, rfl⟩
        obtain ⟨q', hq⟩ := this
        exact ⟨q'.reverse, by rw [hq]; simp⟩
      obtain ⟨u, hu⟩ := h2
      rw [h1, hu]
      unfold trimL
      simp [ha]
    | true =>
      have h1 : trimL isSpace (a :: t) = trimL isSpace t := by unfold trimL; simp [ha]
      have h3 : trimR isSpace (a :: t) = [] ∧ trimR isSpace t = [] ∨
          trimR isSpace (a :: t) = a :: trimR isSpace t := by
        unfold trimR
        rw [List.reverse_cons]
        generalize t.reverse = q
        have : (q ++ [a]).dropWhile isSpace = [] ∧ q.dropWhile isSpace = [] ∨
            (q ++ [a]).dropWhile isSpace = q.dropWhile isSpace ++ [a] := by
          induction q with
          | nil => left; simp [ha]
          | cons b q ih =>
            rw [List.cons_append, List.dropWhile_cons, List.dropWhile_cons]
            cases isSpace b with
            | true => exact ih
            | false => right; rfl
        rcases this with ⟨g1, g2⟩ | g
        · left; rw [g1, g2]; exact ⟨rfl, rfl⟩
        · right; rw [g]; simp
      rcases h3 with ⟨g, _⟩ | g
      · exact Or.inr g
      · rcases ih with ih | ih
        · left
          rw [h1, g, ih]
          conv => rhs; unfold trimL
          rw [List.dropWhile_cons, if_pos ha]
          rfl
        · by_cases hz : trimR isSpace (a :: t) = []
          · exact Or.inr hz
          · left
            rw [h1, g, ih]
            have hb : ∀ q : Str, q.dropWhile isSpace = [] → ∀ c ∈ q, isSpace c = true := by
              intro q
              induction q with
              | nil => intro _ c hc; cases hc
              | cons b q ihq =>
                intro hq c hc
                rw [List.dropWhile_cons] at hq
                cases hb : isSpace b with
                | false => rw [hb] at hq; cases hq
                | true =>
                  rw [hb] at hq
                  rcases List.mem_cons.mp hc with rfl | hc
                  · exact hb
                  · exact ihq hq c hc
            have hrev : t.reverse.dropWhile isSpace = [] := by
              unfold trimR at ih
              exact List.reverse_eq_nil_iff.mp ih
            have hall : ∀ c ∈ t, isSpace c = true := fun c hc => hb _ hrev c (List.mem_reverse.mpr hc)
            have hdt : ∀ q : Str, (∀ c ∈ q, isSpace c = true) → q.dropWhile isSpace = [] := by
              intro q
              induction q with
              | nil => intro _; rfl
              | cons b q ihq =>
                intro hq
                rw [List.dropWhile_cons, if_pos (hq b List.mem_cons_self)]
                exact ihq (fun c hc => hq c (List.mem_cons_of_mem _ hc))
            unfold trimL
            rw [hdt t hall, List.dropWhile_cons, if_pos ha]
            rfl

theorem trimL_le (p : Char → Bool) (s : Str) : (trimL p s).length ≤ s.length :=
  (List.dropWhile_sublist p).length_le

theorem trimR_le (p : Char → Bool) (s : Str) : (trimR p s).length ≤ s.length := by
  have := trimL_le p s.reverse
  unfold trimL at this
  unfold trimR
  rw [List.length_reverse] at this ⊢
  exact this

theorem oneSlash_le {s t : Str} (h : OneSlash s t) : t.length ≤ s.length := by
  cases h with
  | none => exact Nat.le_refl _
  | some n r hr => simp; omega

theorem prefixed_le {h h' : Bool} {s t : Str} (hp : Prefixed h s h' t) : t.length ≤ s.length := by
  cases hp with
  | http _ g => obtain ⟨a, e, _⟩ := g; rw [e]; simp
  | plain _ g => obtain ⟨a, e, _⟩ := g; rw [e]; simp
  | other => exact Nat.le_refl _

theorem isGet_le {s x : Str} (h : IsGet s x) : x.length ≤ s.length := by
  obtain ⟨g, b1, b2, v, d, e, _⟩ := h
  rw [e]
  simp
  omega

theorem preAfter_some (c0 : Char) (h0 : isSpace c0 = true) : ∀ s : Str,
    ∃ c, preAfter (some c0) s = some c ∧ isSpace c = true
  | [] => ⟨c0, rfl, h0⟩
  | a :: s => by
    unfold preAfter
    by_cases ha : isSpace a = true
    · rw [if_pos ha]; exact preAfter_some a ha s
    · rw [if_neg ha]; exact ⟨c0, rfl, h0⟩

theorem preAfter_none (s : Str) :
    (trimL isSpace s = s ∧ preAfter none s = none) ∨ ∃ c, preAfter none s = some c ∧ isSpace c = true := by
  cases s with
  | nil => exact Or.inl ⟨rfl, rfl⟩
  | cons a s =>
    by_cases ha : isSpace a = true
    · right
      unfold preAfter
      rw [if_pos ha]
      exact preAfter_some a ha s
    · left
      unfold preAfter trimL
      rw [if_neg ha, List.dropWhile_cons, if_neg ha]
      exact ⟨rfl, rfl⟩

theorem space_slash {c : Char} (h : isSpace c = true) : isSlash c = false := by
  cases hc : isSlash c with
  | false => rfl
  | true =>
    unfold isSlash at hc
    have := of_decide_eq_true hc
    subst this
    exact absurd h (by decide)

theorem emptied_slash {c : Char} (h : isSpace c = true) : emptied isSlash (some c) = true := by
  unfold emptied
  simp [space_slash h]

theorem emptied_space {c : Char} (h : isSpace c = true) : emptied isSpace (some c) = false := by
  unfold emptied
  have : c ≠ nul := by rintro rfl; exact absurd h (by decide)
  simp [h, this]

/-- From the stripping of blanks after the request was parsed. -/
def tailSteps (r4 : Rq) : Out :=
  (strip isSpace r4).next fun r5 =>
  (strip (fun c => c = '/') r5).next fun r6 =>
  (skipLeading r6).next fun r7 =>
  (skipSlashes r7).next fun r8 =>
  (checkPrefixes r8).next fun r9 =>
  skipSlashes r9

theorem tail_holds (r : Rq) (x : Str) (h : Holds r x) (hl : x.length < 1024)
    (h1 : x = [] ∨ trimR isSpace x ≠ [])
    (h2 : x = [] ∨ trimR isSlash (trimR isSpace x) ≠ [] ∨ emptied isSlash r.pre = true) :
    ∃ r' u v w, tailSteps r = .ok r' ∧ Holds r' w ∧
      OneSlash (trimL isSpace (trimR isSlash (trimR isSpace x))) u ∧ Prefixed r.hdr u r'.hdr v ∧
      OneSlash v w ∧ r'.len < 1024 := by
  unfold tailSteps
  obtain ⟨r5, a1, a2, a3, a4⟩ := strip_holds isSpace r x h (h1.elim Or.inl (fun h => Or.inr (Or.inl h)))
  have l5 := trimR_le isSpace x
  rw [a1]
  obtain ⟨r6, b1, b2, b3, b4⟩ := strip_holds isSlash r5 _ a2 (by
    rcases h2 with h2 | h2 | h2
    · left; rw [h2]; rfl
    · exact Or.inr (Or.inl h2)
    · right; right; rw [a4]; exact h2)
  have l6 := trimR_le isSlash (trimR isSpace x)
  simp only [Out.next]
  rw [show strip (fun c => decide (c = '/')) r5 = strip isSlash r5 from rfl, b1]
  obtain ⟨r7, c1, c2, c3, _⟩ := skip_holds r6 _ b2 (by omega)
  have l7 := trimL_le isSpace (trimR isSlash (trimR isSpace x))
  simp only [c1]
  obtain ⟨r8, u, d1, d2, d3, d4⟩ := slashes_hold r7 _ c2 (by omega)
  have l8 := oneSlash_le d3
  simp only [d1]
  obtain ⟨r9, v, e1, e2, e3⟩ := prefixes_hold r8 u d2
  have l9 := prefixed_le e3
  simp only [e1]
  obtain ⟨r10, w, f1, f2, f3, f4⟩ := slashes_hold r9 v e2 (by omega)
  have l10 := oneSlash_le f3
  refine ⟨r10, u, v, w, f1, f2, d3, ?_, f3, by rw [f2.2.1]; omega⟩
  rw [f4]
  rw [d4, c3, b3, a3] at e3
  exact e3

/-- The steps up to the parsing of the request. -/
theorem head_holds (hdr : Bool) (data old : Str) (h0 : data ≠ []) (h1 : ¬ BlankLine data) :
    ∃ r3, sanitise hdr data old = (parseRequest r3).next tailSteps ∧ Holds r3 (request data) ∧ r3.hdr = hdr ∧
      r3.pre = preAfter none (trimR isSpace (firstLine (data.take 1023))) := by
  unfold sanitise
  obtain ⟨r1, a1, a2, a3, a4⟩ := cut_holds data old hdr h0
  have e1023 : bufSize - 1 = 1023 := by decide
  rw [e1023] at a2
  rw [a1]
  simp only [Out.next]
  have hb : firstLine (data.take 1023) = [] ∨ trimR isSpace (firstLine (data.take 1023)) ≠ [] := by
    by_cases hl : firstLine (data.take 1023) = []
    · exact Or.inl hl
    · exact Or.inr (fun h => h1 ⟨hl, h⟩)
  obtain ⟨r2, b1, b2, b3, b4⟩ := strip_holds isSpace r1 _ a2 (hb.elim Or.inl (fun h => Or.inr (Or.inl h)))
  simp only [b1]
  have l1 : (firstLine (data.take 1023)).length ≤ 1023 := by
    have := (List.takeWhile_sublist (l := data.take 1023)
      (fun c => !(c = '\n' || c = '\r' || c = nul))).length_le
    have h2 : (data.take 1023).length ≤ 1023 := by rw [List.length_take]; omega
    exact Nat.le_trans this h2
  have l2 := trimR_le isSpace (firstLine (data.take 1023))
  obtain ⟨r3, c1, c2, c3, c4⟩ := skip_holds r2 _ b2 (by omega)
  simp only [c1]
  refine ⟨r3, rfl, c2, by rw [c3, b3, a3], ?_⟩
  rw [c4, b4, a4]

theorem request_len (data : Str) : (request data).length < 1024 := by
  have l1 : (firstLine (data.take 1023)).length ≤ 1023 := by
    have := (List.takeWhile_sublist (l := data.take 1023)
      (fun c => !(c = '\n' || c = '\r' || c = nul))).length_le
    have h2 : (data.take 1023).length ≤ 1023 := by rw [List.length_take]; omega
    exact Nat.le_trans this h2
  have l2 := trimR_le isSpace (firstLine (data.take 1023))
  have l3 := trimL_le isSpace (trimR isSpace (firstLine (data.take 1023)))
  unfold request
  omega

theorem request_trimmed (data : Str) : trimR isSpace (request data) = request data := by
  unfold request
  have h := trimR_trimL (trimR isSpace (firstLine (data.take 1023)))
  rw [trimR_trimR] at h
  rcases h with h | h
  · exact h
  · rw [h]; rfl

theorem slashes_head {u : Str} (h : trimR isSlash u = []) :
    ∀ c ∈ u, isSlash c = true := by
  have hb : ∀ q : Str, q.dropWhile isSlash = [] → ∀ c ∈ q, isSlash c = true := by
    intro q
    induction q with
    | nil => intro _ c hc; cases hc
    | cons b q ihq =>
      intro hq c hc
      rw [List.dropWhile_cons] at hq
      cases hb : isSlash b with
      | false => rw [hb] at hq; cases hq
      | true =>
        rw [hb] at hq
        rcases List.mem_cons.mp hc with rfl | hc
        · exact hb
        · exact ihq hq c hc
  unfold trimR at h
  have := hb _ (List.reverse_eq_nil_iff.mp h)
  intro c hc
  exact this c (List.mem_reverse.mpr hc)

theorem not_get_slashes {t x : Str} (h : ∀ c ∈ t, isSlash c = true) : ¬ IsGet t x := by
  rintro ⟨g, b1, b2, v, d, e, _, _, hb, _⟩
  have := h b1 (by rw [e]; simp)
  rw [space_slash hb] at this
  cases this

end Verif.InfoReq
