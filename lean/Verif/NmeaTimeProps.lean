import Verif.NmeaTimeModel

/-!
# C153: the time and the date of nmealib
-/

namespace Verif.NmeaTime

/-- A digit. -/
def dig (d : Nat) : Char := Char.ofNat (48 + d)

/-- Two digits. -/
def two (n : Nat) : List Char := [dig (n / 10), dig (n % 10)]

/-- Three digits. -/
def thr (n : Nat) : List Char := [dig (n / 100), dig (n / 10 % 10), dig (n % 10)]

private theorem dig_ok (d : Nat) (h : d < 10) : (dig d).isDigit = true ∧ (dig d).toNat - 48 = d ∧ dig d ≠ '-' ∧ dig d ≠ '+' ∧
    dig d ≠ '*' ∧ isSpace (dig d) = false := by
  have : ∀ x : Fin 10, (dig x.1).isDigit = true ∧ (dig x.1).toNat - 48 = x.1 ∧ dig x.1 ≠ '-' ∧ dig x.1 ≠ '+' ∧ dig x.1 ≠ '*' ∧
      isSpace (dig x.1) = false := by decide
  exact this ⟨d, h⟩

private theorem digs_map (ds : List Nat) (h : ∀ d ∈ ds, d < 10) (n : Nat) :
    digs n (ds.map dig) = ds.foldl (fun n d => n * 10 + d) n := by
  induction ds generalizing n with
  | nil => rfl
  | cons d ds ih =>
    have hd := dig_ok d (h d (by simp))
    show (if (dig d).isDigit = true then digs (n * 10 + ((dig d).toNat - 48)) (ds.map dig) else n) = _
    rw [if_pos hd.1, hd.2.1]
    exact ih (fun x hx => h x (List.mem_cons_of_mem _ hx)) _

private theorem field_map (old d : Nat) (ds : List Nat) (h : ∀ x ∈ d :: ds, x < 10) :
    field old ((d :: ds).map dig) = some ((d :: ds).foldl (fun n d => n * 10 + d) 0) := by
  have hd := dig_ok d (h d (by simp))
  have k := digs_map (d :: ds) h 0
  obtain ⟨c, hc⟩ : ∃ c, c = dig d := ⟨_, rfl⟩
  simp only [List.map_cons] at k ⊢
  rw [← hc] at hd k ⊢
  unfold field
  split
  · next e => injection e with e _; exact absurd e hd.2.2.2.2.1
  · unfold num
    split
    · next e => injection e with e _; exact absurd e hd.2.2.1
    · next e => injection e with e _; exact absurd e hd.2.2.2.1
    · rw [if_pos (show lead (c :: ds.map dig) = true from hd.1), k]

private theorem field_two (old n : Nat) (h : n < 100) : field old (two n) = some n := by
  have := field_map old (n / 10) [n % 10] (by intro x hx; simp only [List.mem_cons, List.not_mem_nil, or_false] at hx; omega)
  rw [show two n = (n / 10 :: [n % 10]).map dig from rfl, this]
  simp only [List.foldl]
  congr 1
  omega

private theorem field_thr (old n : Nat) (h : n < 1000) : field old (thr n) = some n := by
  have := field_map old (n / 100) [n / 10 % 10, n % 10]
    (by intro x hx; simp only [List.mem_cons, List.not_mem_nil, or_false] at hx; omega)
  rw [show thr n = (n / 100 :: [n / 10 % 10, n % 10]).map dig from rfl, this]
  simp only [List.foldl]
  congr 1
  omega

private theorem field_one (old n : Nat) (h : n < 10) : field old [dig n] = some n := by
  have := field_map old n [] (by intro x hx; simp only [List.mem_cons, List.not_mem_nil, or_false] at hx; omega)
  rw [show [dig n] = (n :: []).map dig from rfl, this]
  simp only [List.foldl]
  congr 1
  omega

private theorem two_ns (n : Nat) (h : n < 100) : ∀ c ∈ two n, isSpace c = false := by
  intro c hc
  simp only [two, List.mem_cons, List.not_mem_nil, or_false] at hc
  rcases hc with rfl | rfl
  · exact (dig_ok _ (by omega)).2.2.2.2.2
  · exact (dig_ok _ (by omega)).2.2.2.2.2

private theorem thr_ns (n : Nat) (h : n < 1000) : ∀ c ∈ thr n, isSpace c = false := by
  intro c hc
  simp only [thr, List.mem_cons, List.not_mem_nil, or_false] at hc
  rcases hc with rfl | rfl | rfl
  · exact (dig_ok _ (by omega)).2.2.2.2.2
  · exact (dig_ok _ (by omega)).2.2.2.2.2
  · exact (dig_ok _ (by omega)).2.2.2.2.2

private theorem drop_ns (p s : List Char) (hp : ∀ c ∈ p, isSpace c = true) (hs : ∀ c ∈ s, isSpace c = false) (q : List Char)
    (h0 : s ≠ []) : (p ++ s ++ q).dropWhile isSpace = s ++ q := by
  induction p with
  | nil =>
    match s, h0 with
    | c :: s, _ =>
      show (c :: (s ++ q)).dropWhile isSpace = _
      rw [List.dropWhile_cons_of_neg (by rw [hs c (by simp)]; decide)]
      rfl
  | cons c p ih =>
    show (c :: (p ++ s ++ q)).dropWhile isSpace = _
    rw [List.dropWhile_cons_of_pos (hp c (by simp))]
    exact ih (fun x hx => hp x (List.mem_cons_of_mem _ hx))

private theorem trim_ns (p s q : List Char) (hp : ∀ c ∈ p, isSpace c = true) (hq : ∀ c ∈ q, isSpace c = true)
    (hs : ∀ c ∈ s, isSpace c = false) (h0 : s ≠ []) : trim (p ++ s ++ q) = s := by
  unfold trim
  rw [drop_ns p s hp hs q h0, List.reverse_append]
  have := drop_ns q.reverse s.reverse (by simpa using hq) (by simpa using hs) [] (by simpa using h0)
  rw [List.append_nil, List.append_nil] at this
  rw [this, List.reverse_reverse]

private theorem any_ns (s : List Char) (hs : ∀ c ∈ s, isSpace c = false) : ¬ s.any isSpace = true := by
  rw [List.any_eq_true]
  rintro ⟨c, hc, h⟩
  rw [hs c hc] at h
  cases h

private theorem three_ok (a b c x y z : Nat) (hx : x < 100) (hy : y < 100) (hz : z < 100) (r : List Char) :
    three a b c (two x ++ two y ++ two z ++ r) = some (x, y, z) := by
  have e1 : (two x ++ two y ++ two z ++ r).take 2 = two x := rfl
  have e2 : ((two x ++ two y ++ two z ++ r).drop 2).take 2 = two y := rfl
  have e3 : ((two x ++ two y ++ two z ++ r).drop 4).take 2 = two z := rfl
  unfold three
  rw [e1, e2, e3, field_two a x hx, field_two b y hy, field_two c z hz]

private theorem four_ok (o : Time) (x y z u : Nat) (hx : x < 100) (hy : y < 100) (hz : z < 100) (r : List Char)
    (hr : field o.hsec r = some u) :
    four o (two x ++ two y ++ two z ++ '.' :: r) = some { o with hour := x, min := y, sec := z, hsec := u } := by
  have e : (two x ++ two y ++ two z ++ '.' :: r).drop 6 = '.' :: r := rfl
  unfold four
  rw [three_ok _ _ _ x y z hx hy hz, e]
  simp only []
  rw [hr]

private theorem hms_ns (x y z : Nat) (hx : x < 100) (hy : y < 100) (hz : z < 100) (r : List Char) (hr : ∀ c ∈ r, isSpace c = false) :
    ∀ c ∈ two x ++ two y ++ two z ++ r, isSpace c = false := by
  intro c hc
  simp only [List.mem_append] at hc
  rcases hc with ((h | h) | h) | h
  · exact two_ns x hx c h
  · exact two_ns y hy c h
  · exact two_ns z hz c h
  · exact hr c h

private theorem dot_ns (r : List Char) (hr : ∀ c ∈ r, isSpace c = false) : ∀ c ∈ '.' :: r, isSpace c = false := by
  intro c hc
  rcases List.mem_cons.mp hc with rfl | h
  · decide
  · exact hr c h

/-- The four forms of a time are read, with white space around them: hours, minutes, seconds, and tenths, hundredths or thousandths,
the latter rounded to the nearest hundredth. -/
theorem C153_time (p q : List Char) (hp : ∀ c ∈ p, isSpace c = true) (hq : ∀ c ∈ q, isSpace c = true) (o : Time) (x y z f : Nat)
    (hx : x < 100) (hy : y < 100) (hz : z < 100) :
    parseTime (p ++ (two x ++ two y ++ two z) ++ q) o = some { o with hour := x, min := y, sec := z, hsec := 0 } ∧
    (f < 10 → parseTime (p ++ (two x ++ two y ++ two z ++ '.' :: [dig f]) ++ q) o =
      some { o with hour := x, min := y, sec := z, hsec := 10 * f }) ∧
    (f < 100 → parseTime (p ++ (two x ++ two y ++ two z ++ '.' :: two f) ++ q) o =
      some { o with hour := x, min := y, sec := z, hsec := f }) ∧
    (f < 1000 → ∃ u, parseTime (p ++ (two x ++ two y ++ two z ++ '.' :: thr f) ++ q) o =
      some { o with hour := x, min := y, sec := z, hsec := u } ∧ 10 * u ≤ f + 5 ∧ f < 10 * u + 5) := by
  refine ⟨?_, fun hf => ?_, fun hf => ?_, fun hf => ?_⟩
  · have ns := hms_ns x y z hx hy hz [] (by simp)
    rw [List.append_nil] at ns
    have h3 := three_ok o.hour o.min o.sec x y z hx hy hz []
    rw [List.append_nil] at h3
    unfold parseTime
    rw [trim_ns p _ q hp hq ns (by simp [two])]
    simp only []
    rw [if_neg (any_ns _ ns), if_pos (by simp [two]), h3]
  · have ns := hms_ns x y z hx hy hz ('.' :: [dig f]) (dot_ns _ (by
      intro c hc; simp only [List.mem_cons, List.not_mem_nil, or_false] at hc; rw [hc]; exact (dig_ok f hf).2.2.2.2.2))
    unfold parseTime
    rw [trim_ns p _ q hp hq ns (by simp [two])]
    simp only []
    rw [if_neg (any_ns _ ns), if_neg (by simp [two]), if_pos (by simp [two]), four_ok o x y z f hx hy hz _ (field_one _ f hf)]
    simp only []
    rw [show f * 10 % 4294967296 = 10 * f by omega]
  · have ns := hms_ns x y z hx hy hz ('.' :: two f) (dot_ns _ (two_ns f hf))
    unfold parseTime
    rw [trim_ns p _ q hp hq ns (by simp [two])]
    simp only []
    rw [if_neg (any_ns _ ns), if_neg (by simp [two]), if_neg (by simp [two]), if_pos (by simp [two]), four_ok o x y z f hx hy hz _ (field_two _ f hf)]
  · have ns := hms_ns x y z hx hy hz ('.' :: thr f) (dot_ns _ (thr_ns f hf))
    unfold parseTime
    rw [trim_ns p _ q hp hq ns (by simp [two])]
    simp only []
    rw [if_neg (any_ns _ ns), if_neg (by simp [two, thr]), if_neg (by simp [two, thr]), if_neg (by simp [two, thr]), if_pos (by simp [two, thr]),
      four_ok o x y z f hx hy hz _ (field_thr _ f hf)]
    exact ⟨(f + 5) % 4294967296 / 10, rfl, by omega, by omega⟩

private def z : Time := ⟨0, 0, 0, 0, 0, 0, 0⟩

example : parseTime " 235959.994\r\n".toList z = some ⟨0, 0, 0, 23, 59, 59, 99⟩ ∧
    "235959.994".toList = two 23 ++ two 59 ++ two 59 ++ '.' :: thr 994 := by decide +kernel

/-- Each of the six characters of white space may stand around a time, and none inside. -/
theorem C153_white : ∀ c ∈ [' ', '\t', '\n', '\x0b', '\x0c', '\r'],
    parseTime ([c, c] ++ "120000.5".toList ++ [c]) z = some ⟨0, 0, 0, 12, 0, 0, 50⟩ ∧ parseTime ("12".toList ++ [c] ++ "000".toList) z = none ∧
    parseDate ([c] ++ "010203".toList ++ [c, c]) z = some ⟨2003, 2, 1, 0, 0, 0, 0⟩ ∧ parseDate ("0102".toList ++ [c] ++ "3".toList) z = none := by
  decide +kernel

/-- A time of the day in thousandths is taken unless it is in the last five of a second. -/
theorem C153_accept_partial (o : Time) (x y z f : Nat) (hx : x ≤ 23) (hy : y ≤ 59) (hz : z ≤ 60) (hf : f < 1000) :
    (takeTime (two x ++ two y ++ two z ++ '.' :: thr f) o).isSome = true ↔ f < 995 := by
  obtain ⟨u, e, h1, h2⟩ := (C153_time [] [] (by simp) (by simp) o x y z f (by omega) (by omega) (by omega)).2.2.2 hf
  rw [List.append_nil, List.nil_append] at e
  unfold takeTime
  rw [e]
  simp only []
  by_cases c : f < 995
  · rw [if_pos (by simp [validTime]; omega)]
    simp [c]
  · rw [if_neg (by simp [validTime]; omega)]
    simp [c]

example : (takeTime "120000.994".toList z).isSome = true := by decide +kernel

/-- The last five thousandths of a second are rounded to 100 hundredths, and the sentence is refused. -/
theorem C153_accept_negation : takeTime "120000.995".toList z = none ∧ takeTime "120000.999".toList z = none ∧
    parseTime "120000.999".toList z = some ⟨0, 0, 0, 12, 0, 0, 100⟩ := by decide +kernel

/-- What is taken is a time of the day, and the date stays. -/
theorem C153_sane (s : List Char) (o t : Time) (h : takeTime s o = some t) :
    t.hour ≤ 23 ∧ t.min ≤ 59 ∧ t.sec ≤ 60 ∧ t.hsec ≤ 99 ∧ t.year = o.year ∧ t.mon = o.mon ∧ t.day = o.day ∧
    ((trim s).length = 6 ∨ (trim s).length = 8 ∨ (trim s).length = 9 ∨ (trim s).length = 10) := by
  have f4 : ∀ w t, four o w = some t → t.year = o.year ∧ t.mon = o.mon ∧ t.day = o.day := by
    intro w t e
    unfold four at e
    split at e
    · cases e
    · split at e
      · split at e
        · cases e
        · cases e; exact ⟨rfl, rfl, rfl⟩
      · cases e
  unfold takeTime at h
  split at h
  · cases h
  · next t' hp =>
    split at h
    · next hv =>
      cases h
      simp only [validTime, Bool.not_eq_true', Bool.or_eq_false_iff, decide_eq_false_iff_not] at hv
      refine ⟨by omega, by omega, by omega, by omega, ?_⟩
      unfold parseTime at hp
      simp only [] at hp
      split at hp
      · cases hp
      · split at hp
        · next hl =>
          split at hp
          · cases hp
          · cases hp; exact ⟨rfl, rfl, rfl, by omega⟩
        · split at hp
          · split at hp
            · cases hp
            · next r hr =>
              cases hp
              have := f4 _ _ hr
              exact ⟨this.1, this.2.1, this.2.2, by omega⟩
          · split at hp
            · have := f4 _ _ hp
              exact ⟨this.1, this.2.1, this.2.2, by omega⟩
            · split at hp
              · split at hp
                · cases hp
                · next r hr =>
                  cases hp
                  have := f4 _ _ hr
                  exact ⟨this.1, this.2.1, this.2.2, by omega⟩
              · cases hp
    · cases h

example : takeTime "235960.5".toList z = some ⟨0, 0, 0, 23, 59, 60, 50⟩ ∧ takeTime "240000".toList z = none ∧
    takeTime "1200000".toList z = none ∧ takeTime "120000,5".toList z = none := by decide +kernel

private theorem pad2_two (n : Nat) (h : n < 100) : pad2 n = two n := by
  have : ∀ x : Fin 100, pad2 x.1 = two x.1 := by decide +kernel
  exact this ⟨n, h⟩

/-- Every time that is valid is read back as it was printed. -/
theorem C153_time_roundtrip (t o : Time) (h1 : t.hour ≤ 23) (h2 : t.min ≤ 59) (h3 : t.sec ≤ 60) (h4 : t.hsec ≤ 99) :
    takeTime (printTime t) o = some { o with hour := t.hour, min := t.min, sec := t.sec, hsec := t.hsec } := by
  have e := (C153_time [] [] (by simp) (by simp) o t.hour t.min t.sec t.hsec (by omega) (by omega) (by omega)).2.2.1 (by omega)
  rw [List.append_nil, List.nil_append] at e
  have pe : printTime t = two t.hour ++ two t.min ++ two t.sec ++ '.' :: two t.hsec := by
    unfold printTime
    rw [pad2_two _ (by omega), pad2_two _ (by omega), pad2_two _ (by omega), pad2_two _ (by omega)]
    rw [List.append_assoc _ ['.']]
    rfl
  unfold takeTime
  rw [pe, e]
  simp only []
  rw [if_pos (by simp [validTime]; omega)]

example : printTime ⟨2026, 11, 18, 1, 2, 3, 4⟩ = "010203.04".toList := by decide +kernel

/-- A date is read with its year from 1991 to 2090, with white space around it. -/
theorem C153_date (p q : List Char) (hp : ∀ c ∈ p, isSpace c = true) (hq : ∀ c ∈ q, isSpace c = true) (o : Time) (d m y : Nat)
    (hd : d < 100) (hm : m < 100) (hy : y < 100) :
    ∃ yy, parseDate (p ++ (two d ++ two m ++ two y) ++ q) o = some { o with day := d, mon := m, year := yy } ∧ yy % 100 = y ∧
      1991 ≤ yy ∧ yy ≤ 2090 := by
  have ns := hms_ns d m y hd hm hy [] (by simp)
  rw [List.append_nil] at ns
  have h3 := three_ok o.day o.mon o.year d m y hd hm hy []
  rw [List.append_nil] at h3
  unfold parseDate
  rw [trim_ns p _ q hp hq ns (by simp [two])]
  simp only []
  rw [if_neg (any_ns _ ns), if_neg (by simp [two]), h3]
  simp only []
  by_cases c : y > 90
  · rw [if_pos c]
    exact ⟨_, rfl, by omega, by omega, by omega⟩
  · rw [if_neg c]
    exact ⟨_, rfl, by omega, by omega, by omega⟩

example : parseDate "181126 ".toList z = some ⟨2026, 11, 18, 0, 0, 0, 0⟩ ∧ parseDate "010191".toList z = some ⟨1991, 1, 1, 0, 0, 0, 0⟩ ∧
    parseDate "1811260".toList z = none := by decide +kernel

/-- A valid date is read back as it was printed if and only if its year is at least 1991. -/
theorem C153_date_roundtrip_partial (t o : Time) (h1 : 1900 ≤ t.year) (h2 : t.year ≤ 2089) (h3 : 1 ≤ t.mon) (h4 : t.mon ≤ 12)
    (h5 : 1 ≤ t.day) (h6 : t.day ≤ 31) :
    takeDate (printDate t) o = some { o with day := t.day, mon := t.mon, year := t.year } ↔ 1991 ≤ t.year := by
  obtain ⟨yy, e, g1, g2, g3⟩ := C153_date [] [] (by simp) (by simp) o t.day t.mon (t.year % 100) (by omega) (by omega) (by omega)
  rw [List.append_nil, List.nil_append] at e
  have pe : printDate t = two t.day ++ two t.mon ++ two (t.year % 100) := by
    unfold printDate
    rw [pad2_two _ (by omega), pad2_two _ (by omega), pad2_two _ (by omega)]
  unfold takeDate
  rw [pe, e]
  simp only []
  constructor
  · intro q
    split at q
    · simp only [Option.some.injEq, Time.mk.injEq] at q
      omega
    · cases q
  · intro q
    have ey : yy = t.year := by omega
    subst ey
    rw [if_pos (by simp [validDate]; omega)]

example : takeDate (printDate ⟨2026, 11, 18, 0, 0, 0, 0⟩) z = some ⟨2026, 11, 18, 0, 0, 0, 0⟩ := by decide +kernel

/-- A valid date of 1950 comes back as 2050, and one of 1990 is refused. -/
theorem C153_date_roundtrip_negation : validDate ⟨1950, 1, 1, 0, 0, 0, 0⟩ = true ∧
    takeDate (printDate ⟨1950, 1, 1, 0, 0, 0, 0⟩) z = some ⟨2050, 1, 1, 0, 0, 0, 0⟩ ∧ validDate ⟨1990, 1, 1, 0, 0, 0, 0⟩ = true ∧
    takeDate (printDate ⟨1990, 1, 1, 0, 0, 0, 0⟩) z = none := by decide +kernel

/-- What is taken is a date, and the time stays. -/
theorem C153_date_sane (s : List Char) (o t : Time) (h : takeDate s o = some t) :
    1900 ≤ t.year ∧ t.year ≤ 2089 ∧ 1 ≤ t.mon ∧ t.mon ≤ 12 ∧ 1 ≤ t.day ∧ t.day ≤ 31 ∧ t.hour = o.hour ∧ t.min = o.min ∧ t.sec = o.sec ∧
    t.hsec = o.hsec ∧ (trim s).length = 6 := by
  unfold takeDate at h
  split at h
  · cases h
  · next t' hp =>
    split at h
    · next hv =>
      cases h
      simp only [validDate, Bool.not_eq_true', Bool.or_eq_false_iff, decide_eq_false_iff_not] at hv
      refine ⟨by omega, by omega, by omega, by omega, by omega, by omega, ?_⟩
      unfold parseDate at hp
      simp only [] at hp
      split at hp
      · cases hp
      · split at hp
        · cases hp
        · next hl =>
          split at hp
          · cases hp
          · cases hp; exact ⟨rfl, rfl, rfl, rfl, by omega⟩
    · cases h

example : takeDate "310289".toList z = some ⟨2089, 2, 31, 0, 0, 0, 0⟩ ∧ takeDate "320189".toList z = none ∧
    takeDate "000189".toList z = none := by decide +kernel

/-- White space inside, a sign before a number and a point that is missing are refused, but letters after a digit and a plus are not, and a
field that starts with an asterisk keeps what was there before. -/
theorem C153_text_negation : takeTime "12 000".toList z = none ∧ takeTime "-12000".toList z = none ∧ takeTime "120000:50".toList z = none ∧
    takeTime "x20000".toList z = none ∧
    takeTime "1x2y3z".toList z = some ⟨0, 0, 0, 1, 2, 3, 0⟩ ∧ takeTime "+1+2-0".toList z = some ⟨0, 0, 0, 1, 2, 0, 0⟩ ∧
    takeTime "12*456".toList ⟨0, 0, 0, 7, 8, 9, 0⟩ = some ⟨0, 0, 0, 12, 8, 56, 0⟩ := by decide +kernel

end Verif.NmeaTime
