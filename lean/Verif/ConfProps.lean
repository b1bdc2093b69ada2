import Verif.ConfLemmas

/-!
# C130: every interface runs with its own settings, else the defaults, else the built-in ones

`C130_values_partial` for every file in which no block names an interface twice and every command line:
the interfaces are those of file and command line, and every setting of each has the last value of
the file for it, else that of the last `InterfaceDefaults`, else the built-in one.
`C130_check` says exactly which configurations are refused, `C130_mark` what is reported as a default,
`C130_mult_partial` which multiplier a link gets.

Missing for the full statement, because the code does not have it: a block that names an interface
twice changes another interface or crashes (`C130_twice_negation`, `C130_crash_negation`), of two
multipliers of an interface for one address the first counts (`C130_again_negation`), the multiplier 0
means 1 (`C130_zero_negation`), and the interface options of the command line have no effect
(`C130_cli`, `C130_cli_negation`).
-/

namespace Verif.Conf

private theorem sized_own (cfg : List Block) (n : List Nat) (hs : Sized cfg) (f : Field)
    (x : List UInt8) (h : Setting.field f x ∈ own cfg n) : x.length = f.len := by
  unfold own at h
  rw [List.mem_flatMap] at h
  obtain ⟨b, hb, hx⟩ := h
  cases b with
  | defaults ss => cases hx
  | iface names ss =>
    have hx : Setting.field f x ∈ if n ∈ names then ss else [] := hx
    by_cases hn : n ∈ names
    · rw [if_pos hn] at hx
      exact hs _ hb ss (Or.inr ⟨names, rfl⟩) f x hx
    · rw [if_neg hn] at hx
      cases hx

private theorem sized_default (cfg : List Block) (hs : Sized cfg) (ss : List Setting)
    (hd : lastDefaults cfg = some ss) (f : Field) (x : List UInt8) (h : Setting.field f x ∈ ss) :
    x.length = f.len := by
  unfold lastDefaults at hd
  have := List.mem_of_getLast? hd
  rw [List.mem_filterMap] at this
  obtain ⟨b, hb, he⟩ := this
  cases b with
  | iface names ss => cases he
  | defaults ss' =>
    have he : some ss' = some ss := he
    cases he
    exact hs _ hb ss (Or.inl rfl) f x h

/-- The defaults that the check uses. -/
private def dfl (v : Env) (cfg : List Block) : Mem × List (Nat × Nat) :=
  defaults v ((lastDefaults cfg).map fun ss =>
    ((madeDefaults v.builtin ss).cnf, (madeDefaults v.builtin ss).mult))

private theorem dfl_read (v : Env) (cfg : List Block) (hs : Sized cfg) (hv : v.hv.length = 4)
    (f : Field) :
    read (dfl v cfg).1 f =
      (lastOf f ((lastDefaults cfg).getD [])).getD (read v.builtin f) ∨
    (f = .helloVal ∧
      v.neg ((lastOf f ((lastDefaults cfg).getD [])).getD (read v.builtin f)) = true ∧
      read (dfl v cfg).1 f = v.hv) := by
  unfold dfl
  cases h : lastDefaults cfg with
  | none => left; rfl
  | some ss =>
    show read (fixHello v (madeDefaults v.builtin ss).cnf) f = _ ∨ _ ∧ _ ∧
      read (fixHello v (madeDefaults v.builtin ss).cnf) f = _
    rw [read_fix _ _ _ hv]
    have : read (madeDefaults v.builtin ss).cnf f = (lastOf f ss).getD (read v.builtin f) :=
      read_after f ss _ (fun x hx => sized_default cfg hs ss h f x hx)
    rw [this]
    show _ = (lastOf f ss).getD _ ∨ _ ∧ v.neg ((lastOf f ss).getD _) = true ∧ _
    by_cases hc : f = .helloVal ∧ v.neg ((lastOf f ss).getD (read v.builtin f)) = true
    · right
      refine ⟨hc.1, hc.2, if_pos hc⟩
    · left
      exact if_neg hc

private theorem settled_read (v : Env) (cfg : List Block) (hs : Sized cfg) (hv : v.hv.length = 4)
    (n : List Nat) (f : Field) :
    read (fixHello v (mergeCnf (dfl v cfg).1 (made n (own cfg n)).cnf (made n (own cfg n)).cnfi)) f =
      effective v cfg n f := by
  rw [read_fix _ _ _ hv, read_merge _ f n _ (fun x hx => sized_own cfg n hs f x hx)]
  unfold effective wanted
  cases ho : lastOf f (own cfg n) with
  | some x => rfl
  | none =>
    show (if f = .helloVal ∧ v.neg (read (dfl v cfg).1 f) = true then v.hv
      else read (dfl v cfg).1 f) = if f = .helloVal ∧ v.neg
        ((lastOf f ((lastDefaults cfg).getD [])).getD (read v.builtin f)) = true then v.hv
        else ((lastOf f ((lastDefaults cfg).getD [])).getD (read v.builtin f))
    rcases dfl_read v cfg hs hv f with h | ⟨h1, h2, h3⟩
    · rw [h]
    · rw [h3, if_pos (⟨h1, h2⟩ : f = .helloVal ∧ v.neg ((lastOf f
        ((lastDefaults cfg).getD [])).getD (read v.builtin f)) = true)]
      split <;> rfl

private theorem dfl_mult (v : Env) (cfg : List Block) :
    (dfl v cfg).2 = (mults ((lastDefaults cfg).getD [])).reverse := by
  unfold dfl
  cases h : lastDefaults cfg with
  | none => rfl
  | some ss =>
    show (madeDefaults v.builtin ss).mult = _
    unfold madeDefaults
    rw [after_mult]
    exact List.append_nil _

private theorem settled_mult (v : Env) (cfg : List Block) (n : List Nat) :
    (made n (own cfg n)).mult ++ copied (made n (own cfg n)).mult [] (dfl v cfg).2 =
      (mults (own cfg n)).reverse ++ (mults ((lastDefaults cfg).getD [])).filter
        fun p => decide (p.1 ∉ (mults (own cfg n)).map Prod.fst) := by
  rw [copied_mem, made_mult, dfl_mult, List.filter_reverse, List.reverse_reverse, List.append_nil]
  congr 1
  apply List.filter_congr
  intro p _
  rw [List.map_reverse, decide_eq_decide, List.mem_reverse]

private theorem or_false' (a b : Bool) : (a || b) = false ↔ a = false ∧ b = false := by
  cases a <;> cases b <;> decide

private theorem passes_iff (v : Env) (cfg : List Block) (hs : Sized cfg) (hv : v.hv.length = 4)
    (n : List Nat) :
    Passes v (dfl v cfg).1 (dfl v cfg).2 (made n (own cfg n)) ↔ Acceptable v cfg n := by
  unfold Passes Acceptable Allowed
  rw [made_name, settled_mult]
  unfold bad badPair
  simp only [settled_read v cfg hs hv n]
  simp only [or_false', List.any_eq_false, List.mem_append, List.mem_reverse, List.mem_filter,
    decide_eq_true_eq, Bool.and_eq_false_iff]
  constructor
  · rintro ⟨h0, ⟨⟨⟨⟨h1, h2⟩, h3⟩, h4⟩, h5⟩, h6⟩
    refine ⟨h0, h1, h2, h4, h5, ?_, ?_, ?_⟩
    · intro hm
      rcases h3 with h | h
      · rw [hm] at h
        cases h
      · exact h
    · intro p hp
      have := h6 p (Or.inl hp)
      omega
    · intro p hp hn
      have := h6 p (Or.inr ⟨hp, hn⟩)
      omega
  · rintro ⟨h0, h1, h2, h4, h5, h3, h6, h7⟩
    refine ⟨h0, ⟨⟨⟨⟨h1, h2⟩, ?_⟩, h4⟩, h5⟩, ?_⟩
    · cases hm : v.minTc with
      | false => exact Or.inl rfl
      | true => exact Or.inr (h3 hm)
    · rintro p (hp | ⟨hp, hn⟩)
      · have := h6 p hp
        omega
      · have := h7 p hp hn
        omega

private theorem run_cases (v : Env) (cfg : List Block) (cli : List Cli) (hr : NoRepeat cfg) :
    ∃ ns : List (List Nat), ns.Nodup ∧ (∀ n, n ∈ ns ↔ n ∈ fileNames cfg ∨ n ∈ cliNames cli) ∧
      (((∀ n ∈ ns, Passes v (dfl v cfg).1 (dfl v cfg).2 (made n (own cfg n))) ∧
        run v cfg cli = .ok (ns.map fun n =>
          settled v (dfl v cfg).1 (dfl v cfg).2 (made n (own cfg n)))) ∨
       ((∃ n ∈ ns, ¬ Passes v (dfl v cfg).1 (dfl v cfg).2 (made n (own cfg n))) ∧
        run v cfg cli = .rejected)) := by
  obtain ⟨ns, h1, h2, h3⟩ := run_check v cfg cli hr
  refine ⟨ns, h1, h2, ?_⟩
  rw [h3]
  rcases check_cases v ((lastDefaults cfg).map fun ss =>
      ((madeDefaults v.builtin ss).cnf, (madeDefaults v.builtin ss).mult))
      (ns.map fun n => made n (own cfg n)) with ⟨ha, hb⟩ | ⟨⟨e, he, hp⟩, hb⟩
  · left
    refine ⟨fun n hn => ha _ (List.mem_map_of_mem hn), ?_⟩
    rw [hb, List.map_map]
    rfl
  · right
    obtain ⟨n, hn, rfl⟩ := List.mem_map.mp he
    exact ⟨⟨n, hn, hp⟩, hb⟩

/-- The interfaces of a started daemon are those of the file and of the command line, each once, and
every setting of each of them is the wanted one. Partial: no block of the file names an interface
twice. -/
theorem C130_values_partial (v : Env) (cfg : List Block) (cli : List Cli) (hr : NoRepeat cfg)
    (hs : Sized cfg) (hv : v.hv.length = 4) (es : List Entry) (h : run v cfg cli = .ok es) :
    (es.map Entry.name).Nodup ∧
    (∀ n, n ∈ es.map Entry.name ↔ n ∈ fileNames cfg ∨ n ∈ cliNames cli) ∧
    ∀ e ∈ es, ∀ f, read e.cnf f = effective v cfg e.name f := by
  obtain ⟨ns, h1, h2, h3 | h3⟩ := run_cases v cfg cli hr
  · rw [h3.2] at h
    cases h
    have hnames : (ns.map fun n => settled v (dfl v cfg).1 (dfl v cfg).2
        (made n (own cfg n))).map Entry.name = ns := by
      rw [List.map_map]
      exact (List.map_congr_left (g := fun n => n) fun n _ => made_name n _).trans (List.map_id' _)
    rw [hnames]
    refine ⟨h1, h2, ?_⟩
    intro e he f
    obtain ⟨n, _, rfl⟩ := List.mem_map.mp he
    show _ = effective v cfg (made n (own cfg n)).name f
    rw [made_name]
    exact settled_read v cfg hs hv n f
  · rw [h3.2] at h
    cases h

/-- The daemon starts exactly if the settings of every interface are acceptable; it does not
crash. -/
theorem C130_check (v : Env) (cfg : List Block) (cli : List Cli) (hr : NoRepeat cfg)
    (hs : Sized cfg) (hv : v.hv.length = 4) :
    ((∃ es, run v cfg cli = .ok es) ↔
      ∀ n, n ∈ fileNames cfg ∨ n ∈ cliNames cli → Acceptable v cfg n) ∧
    (run v cfg cli = .rejected ↔
      ∃ n, (n ∈ fileNames cfg ∨ n ∈ cliNames cli) ∧ ¬ Acceptable v cfg n) := by
  obtain ⟨ns, _, h2, ⟨ha, hb⟩ | ⟨⟨n, hn, hp⟩, hb⟩⟩ := run_cases v cfg cli hr
  · rw [hb]
    have hall : ∀ n, n ∈ fileNames cfg ∨ n ∈ cliNames cli → Acceptable v cfg n := fun n hn =>
      (passes_iff v cfg hs hv n).mp (ha n ((h2 n).mpr hn))
    refine ⟨⟨fun _ => hall, fun _ => ⟨_, rfl⟩⟩, ⟨fun h => (by cases h), ?_⟩⟩
    rintro ⟨n, hn, hx⟩
    exact absurd (hall n hn) hx
  · rw [hb]
    have hex : (n ∈ fileNames cfg ∨ n ∈ cliNames cli) ∧ ¬ Acceptable v cfg n :=
      ⟨(h2 n).mp hn, fun hx => hp ((passes_iff v cfg hs hv n).mpr hx)⟩
    refine ⟨⟨?_, fun h => absurd (h n hex.1) hex.2⟩, ⟨fun _ => ⟨n, hex⟩, fun _ => rfl⟩⟩
    rintro ⟨es, hes⟩
    cases hes

/-- What the reports show as a default (the first byte of the field in `cnfi` is 0) is what the
file does not set for the interface itself. -/
theorem C130_mark (v : Env) (cfg : List Block) (cli : List Cli) (hr : NoRepeat cfg)
    (es : List Entry) (h : run v cfg cli = .ok es) :
    ∀ e ∈ es, ∀ f, e.cnfi f.off = 0 ↔ ∀ x, Setting.field f x ∉ own cfg e.name := by
  obtain ⟨ns, h1, h2, h3 | h3⟩ := run_cases v cfg cli hr
  · rw [h3.2] at h
    cases h
    intro e he f
    obtain ⟨n, _, rfl⟩ := List.mem_map.mp he
    show mergeCnfi (made n (own cfg n)).cnf (made n (own cfg n)).cnfi f.off = 0 ↔
      ∀ x, Setting.field f x ∉ own cfg (made n (own cfg n)).name
    rw [made_name]
    have := mark_merge f n (own cfg n) 0 (by cases f <;> decide)
    rw [Nat.add_zero] at this
    rw [this]
    cases hl : lastOf f (own cfg n) with
    | some x =>
      constructor
      · intro hh
        have hh : (255 : UInt8) = 0 := hh
        exact absurd hh (by decide)
      · intro hh
        exact absurd (lastOf_mem f _ x hl) (hh x)
    | none =>
      refine ⟨fun _ x hx => ?_, fun _ => rfl⟩
      unfold lastOf at hl
      rw [List.getLast?_eq_none_iff, List.filterMap_eq_nil_iff] at hl
      have := hl _ hx
      simp [Setting.value] at this
  · rw [h3.2] at h
    cases h

private theorem lossLoop_eq (a : Nat) (ha : a ≠ 0) : ∀ (l : List (Nat × Nat)) (val : Nat),
    (∀ p ∈ l, p.2 ≠ 0) →
    lossLoop a val l = ((valuesFor a l).getLast?).getD
      (if val ≠ 0 then val else ((valuesFor 0 l).head?).getD 0) := by
  intro l
  induction l with
  | nil =>
    intro val _
    show val = if val ≠ 0 then val else 0
    split <;> omega
  | cons p l ih =>
    intro val hz
    have hp := hz p (List.mem_cons_self ..)
    have ih := fun val => ih val (fun q hq => hz q (List.mem_cons_of_mem _ hq))
    show lossLoop a (if (p.1 = 0 ∧ val = 0) ∨ p.1 = a then p.2 else val) l = _
    rw [ih]
    unfold valuesFor
    by_cases h1 : p.1 = a
    · have h0 : p.1 ≠ 0 := by omega
      rw [if_pos (Or.inr h1), if_pos hp, List.filterMap_cons_some (b := p.2) (by simp [h1]),
        List.getLast?_cons, Option.getD_some]
    · rw [List.filterMap_cons_none (a := p) (l := l)
        (f := fun p => if p.1 = a then some p.2 else none) (by simp [h1])]
      by_cases h0 : p.1 = 0
      · rw [List.filterMap_cons_some (a := p) (l := l)
          (f := fun p => if p.1 = 0 then some p.2 else none) (b := p.2) (by simp [h0])]
        by_cases hv : val = 0
        · rw [if_pos (Or.inl ⟨h0, hv⟩), if_pos hp, if_neg (by omega : ¬ val ≠ 0)]
          rfl
        · rw [if_neg (by omega : ¬ ((p.1 = 0 ∧ val = 0) ∨ p.1 = a)), if_pos hv, if_pos hv]
      · rw [List.filterMap_cons_none (a := p) (l := l)
          (f := fun p => if p.1 = 0 then some p.2 else none) (by simp [h0]),
          if_neg (by omega : ¬ ((p.1 = 0 ∧ val = 0) ∨ p.1 = a))]

private theorem valuesFor_append (a : Nat) (l k : List (Nat × Nat)) :
    valuesFor a (l ++ k) = valuesFor a l ++ valuesFor a k := by
  unfold valuesFor
  rw [List.filterMap_append]

private theorem valuesFor_reverse (a : Nat) (l : List (Nat × Nat)) :
    valuesFor a l.reverse = (valuesFor a l).reverse := by
  unfold valuesFor
  rw [List.filterMap_reverse]

private theorem valuesFor_nil (a : Nat) (l : List (Nat × Nat)) :
    valuesFor a l = [] ↔ a ∉ l.map Prod.fst := by
  unfold valuesFor
  rw [List.filterMap_eq_nil_iff, List.mem_map]
  constructor
  · rintro h ⟨p, hp, rfl⟩
    have := h p hp
    simp at this
  · intro h p hp
    rw [if_neg]
    intro hh
    exact h ⟨p, hp, hh⟩

private theorem valuesFor_filter (a : Nat) (d m : List (Nat × Nat)) :
    valuesFor a (d.filter fun p => decide (p.1 ∉ m.map Prod.fst)) =
      if a ∈ m.map Prod.fst then [] else valuesFor a d := by
  by_cases h : a ∈ m.map Prod.fst
  · rw [if_pos h, valuesFor_nil, List.mem_map]
    rintro ⟨p, hp, rfl⟩
    have := (List.mem_filter.mp hp).2
    rw [decide_eq_true_eq] at this
    exact this h
  · rw [if_neg h]
    unfold valuesFor
    rw [List.filterMap_filter]
    congr 1
    funext p
    by_cases hp : p.1 = a
    · rw [if_pos hp, if_pos]
      rw [hp]
      exact decide_eq_true h
    · rw [if_neg hp]
      split <;> rfl

/-- The multiplier of a link: for an address the *first* statement of the interface, the last of the
defaults; for all addresses the last of the interface, the first of the defaults. -/
def actualMult (mine dflt : List (Nat × Nat)) (a : Nat) : Nat :=
  ((valuesFor a mine).head?.or
    ((valuesFor a dflt).getLast?.or
      ((valuesFor 0 mine).getLast?.or (valuesFor 0 dflt).head?))).getD 65536

private theorem loss_actual (mine dflt : List (Nat × Nat)) (a : Nat) (ha : a ≠ 0)
    (hm : ∀ p ∈ mine, p.2 ≠ 0) (hd : ∀ p ∈ dflt, p.2 ≠ 0) :
    loss a (mine.reverse ++ dflt.filter fun p => decide (p.1 ∉ mine.map Prod.fst)) =
      actualMult mine dflt a := by
  have hz : ∀ p ∈ mine.reverse ++ dflt.filter fun p => decide (p.1 ∉ mine.map Prod.fst),
      p.2 ≠ 0 := by
    intro p hp
    rcases List.mem_append.mp hp with h | h
    · exact hm p (List.mem_reverse.mp h)
    · exact hd p (List.mem_filter.mp h).1
  have hvz : ∀ (b : Nat) (l : List (Nat × Nat)) (x : Nat), (∀ p ∈ l, p.2 ≠ 0) →
      x ∈ valuesFor b l → x ≠ 0 := by
    intro b l x hl hx
    unfold valuesFor at hx
    obtain ⟨p, hp, hpx⟩ := List.mem_filterMap.mp hx
    have := hl p hp
    by_cases hb : p.1 = b
    · rw [if_pos hb] at hpx
      cases hpx
      exact this
    · rw [if_neg hb] at hpx
      cases hpx
  have key : lossLoop a 0 (mine.reverse ++ dflt.filter fun p => decide (p.1 ∉ mine.map Prod.fst)) =
      ((valuesFor a mine).head?.or
        ((valuesFor a dflt).getLast?.or
          ((valuesFor 0 mine).getLast?.or (valuesFor 0 dflt).head?))).getD 0 := by
    rw [lossLoop_eq a ha _ 0 hz, if_neg (by omega : ¬ (0 : Nat) ≠ 0), valuesFor_append,
      valuesFor_append, valuesFor_reverse, valuesFor_reverse, valuesFor_filter, valuesFor_filter,
      List.getLast?_append, List.head?_append, List.getLast?_reverse, List.head?_reverse]
    by_cases h1 : a ∈ mine.map Prod.fst
    · rw [if_pos h1]
      cases hh : valuesFor a mine with
      | nil => exact absurd h1 ((valuesFor_nil a mine).mp hh)
      | cons x xs => rfl
    · rw [if_neg h1, (valuesFor_nil a mine).mpr h1]
      by_cases h0 : 0 ∈ mine.map Prod.fst
      · rw [if_pos h0]
        cases hh : valuesFor 0 mine with
        | nil => exact absurd h0 ((valuesFor_nil 0 mine).mp hh)
        | cons x xs =>
          cases (valuesFor a dflt).getLast? with
          | some y => rfl
          | none =>
            cases hl : (x :: xs).getLast? with
            | none => rw [List.getLast?_eq_none_iff] at hl; cases hl
            | some y => rfl
      · rw [if_neg h0, (valuesFor_nil 0 mine).mpr h0]
        cases (valuesFor a dflt).getLast? <;> rfl
  unfold loss actualMult
  rw [key]
  cases hx : ((valuesFor a mine).head?.or
        ((valuesFor a dflt).getLast?.or
          ((valuesFor 0 mine).getLast?.or (valuesFor 0 dflt).head?))) with
  | none => rfl
  | some x =>
    have hx0 : x ≠ 0 := by
      cases h1 : (valuesFor a mine).head? with
      | some y =>
        rw [h1] at hx
        cases hx
        exact hvz a mine x hm (List.mem_of_head? h1)
      | none =>
        rw [h1] at hx
        cases h2 : (valuesFor a dflt).getLast? with
        | some y =>
          rw [h2] at hx
          cases hx
          exact hvz a dflt x hd (List.mem_of_getLast? h2)
        | none =>
          rw [h2] at hx
          cases h3 : (valuesFor 0 mine).getLast? with
          | some y =>
            rw [h3] at hx
            cases hx
            exact hvz 0 mine x hm (List.mem_of_getLast? h3)
          | none =>
            rw [h3] at hx
            exact hvz 0 dflt x hd (List.mem_of_head? hx)
    show (if x = 0 then 65536 else x) = x
    rw [if_neg hx0]

/-- Which multiplier a link to address `a` over an interface of a started daemon gets, if none is
0. -/
theorem C130_mult (v : Env) (cfg : List Block) (cli : List Cli) (hr : NoRepeat cfg)
    (es : List Entry) (h : run v cfg cli = .ok es) (a : Nat) (ha : a ≠ 0) (e : Entry) (he : e ∈ es)
    (hm : ∀ p ∈ mults (own cfg e.name), p.2 ≠ 0)
    (hd : ∀ p ∈ mults ((lastDefaults cfg).getD []), p.2 ≠ 0) :
    loss a e.mult =
      actualMult (mults (own cfg e.name)) (mults ((lastDefaults cfg).getD [])) a := by
  obtain ⟨ns, h1, h2, h3 | h3⟩ := run_cases v cfg cli hr
  · rw [h3.2] at h
    cases h
    obtain ⟨n, _, rfl⟩ := List.mem_map.mp he
    have hn : (settled v (dfl v cfg).1 (dfl v cfg).2 (made n (own cfg n))).name = n := made_name n _
    rw [hn] at hm ⊢
    rw [← loss_actual _ _ a ha hm hd, ← settled_mult v cfg n]
    rfl
  · rw [h3.2] at h
    cases h

/-- That is the wanted one if the interface has at most one for the address and the defaults have at
most one for all addresses. -/
theorem C130_mult_partial (v : Env) (cfg : List Block) (cli : List Cli) (hr : NoRepeat cfg)
    (es : List Entry) (h : run v cfg cli = .ok es) (a : Nat) (ha : a ≠ 0) (e : Entry) (he : e ∈ es)
    (hm : ∀ p ∈ mults (own cfg e.name), p.2 ≠ 0)
    (hd : ∀ p ∈ mults ((lastDefaults cfg).getD []), p.2 ≠ 0)
    (h1 : (valuesFor a (mults (own cfg e.name))).length ≤ 1)
    (h2 : (valuesFor 0 (mults ((lastDefaults cfg).getD []))).length ≤ 1) :
    loss a e.mult =
      wantedMult (mults (own cfg e.name)) (mults ((lastDefaults cfg).getD [])) a := by
  rw [C130_mult v cfg cli hr es h a ha e he hm hd]
  have one : ∀ l : List Nat, l.length ≤ 1 → l.head? = l.getLast? := by
    intro l hl
    match l, hl with
    | [], _ => rfl
    | [x], _ => rfl
  unfold actualMult wantedMult
  rw [one _ h1, one _ h2]

/-- The options of the command line for interface settings make no difference at all. -/
theorem C130_cli (v : Env) (cfg : List Block) (cli : List Cli) :
    run v cfg cli = run v cfg ((cliNames cli).map Cli.iface) := by
  have hifs : ∀ (cli : List Cli) (es : List Entry),
      cli.foldl cliIf es = ((cliNames cli).map Cli.iface).foldl cliIf es := by
    intro cli
    induction cli with
    | nil => intro es; rfl
    | cons c cli ih =>
      intro es
      cases c with
      | iface n => exact ih (create es n)
      | opt f x => exact ih es
  have hone : ∀ s e, (setOne s e).isNull = e.isNull := setOne_null
  have hfirst : ∀ s (k : Nat) (es es' : List Entry), (∀ e ∈ es, e.isNull = false) →
      setFirst s k es = some es' → ∀ e ∈ es', e.isNull = false := by
    intro s k
    induction k with
    | zero => intro es es' h heq; cases es <;> (cases heq; exact h)
    | succ k ih =>
      intro es es' h heq
      cases es with
      | nil => cases heq
      | cons e es =>
        have heq : (setFirst s k es).map (setOne s e :: ·) = some es' := heq
        rw [Option.map_eq_some_iff] at heq
        obtain ⟨t, ht, rfl⟩ := heq
        intro a ha
        rcases List.mem_cons.mp ha with rfl | ha
        · rw [hone]
          exact h e (List.mem_cons_self ..)
        · exact ih es t (fun b hb => h b (List.mem_cons_of_mem _ hb)) ht a ha
  have hall : ∀ ss (k : Nat) (es es' : List Entry), (∀ e ∈ es, e.isNull = false) →
      setAll ss k es = some es' → ∀ e ∈ es', e.isNull = false := by
    intro ss k
    induction ss with
    | nil => intro es es' h heq; cases heq; exact h
    | cons s ss ih =>
      intro es es' h heq
      have heq : (setFirst s k es).bind (setAll ss k) = some es' := heq
      rw [Option.bind_eq_some_iff] at heq
      obtain ⟨t, ht, ht2⟩ := heq
      exact ih t es' (hfirst s k es t h ht) ht2
  have htake : ∀ n (es : List Entry) r, (∀ e ∈ es, e.isNull = false) → takeOut n es = some r →
      r.1.isNull = false ∧ ∀ e ∈ r.2, e.isNull = false := by
    intro n es
    induction es with
    | nil => intro r _ h; cases h
    | cons e es ih =>
      intro r h heq
      have heq : (if e.name = n then some (e, es)
        else (takeOut n es).map fun r => (r.1, e :: r.2)) = some r := heq
      by_cases hn : e.name = n
      · rw [if_pos hn] at heq
        cases heq
        exact ⟨h e (List.mem_cons_self ..), fun a ha => h a (List.mem_cons_of_mem _ ha)⟩
      · rw [if_neg hn, Option.map_eq_some_iff] at heq
        obtain ⟨t, ht, rfl⟩ := heq
        obtain ⟨h1, h2⟩ := ih t (fun a ha => h a (List.mem_cons_of_mem _ ha)) ht
        refine ⟨h1, fun a ha => ?_⟩
        rcases List.mem_cons.mp ha with rfl | ha
        · exact h _ (List.mem_cons_self ..)
        · exact h2 a ha
  have hnick : ∀ n (es : List Entry), (∀ e ∈ es, e.isNull = false) →
      ∀ e ∈ nick es n, e.isNull = false := by
    intro n es h
    unfold nick
    cases ht : takeOut n es with
    | none =>
      intro e he
      rcases List.mem_cons.mp he with rfl | he
      · rfl
      · exact h e he
    | some r =>
      obtain ⟨h1, h2⟩ := htake n es r h ht
      intro e he
      rcases List.mem_cons.mp he with rfl | he
      · exact h1
      · exact h2 e he
  have hnicks : ∀ (names : List (List Nat)) (es : List Entry), (∀ e ∈ es, e.isNull = false) →
      ∀ e ∈ names.foldl nick es, e.isNull = false := by
    intro names
    induction names with
    | nil => intro es h; exact h
    | cons n names ih => intro es h; exact ih _ (hnick n es h)
  have hblock : ∀ b (st st' : Parsed), (∀ e ∈ st.ifs, e.isNull = false) →
      block v.builtin st b = some st' → ∀ e ∈ st'.ifs, e.isNull = false := by
    intro b st st' h heq
    cases b with
    | iface names ss =>
      have heq : (setAll ss names.length (names.foldl nick st.ifs)).map
        (fun es => ({ st with ifs := es } : Parsed)) = some st' := heq
      rw [Option.map_eq_some_iff] at heq
      obtain ⟨t, ht, rfl⟩ := heq
      exact hall ss _ _ t (hnicks names st.ifs h) ht
    | defaults ss =>
      unfold block at heq
      simp only [] at heq
      split at heq
      · rename_i e es hs
        cases heq
        intro a ha
        refine hall ss 1 _ _ ?_ hs a (List.mem_cons_of_mem _ ha)
        intro c hc
        rcases List.mem_cons.mp hc with rfl | hc
        · rfl
        · exact h c hc
      · cases heq
  have hparse : ∀ (bs : List Block) (st st' : Parsed), (∀ e ∈ st.ifs, e.isNull = false) →
      parse v.builtin st bs = some st' → ∀ e ∈ st'.ifs, e.isNull = false := by
    intro bs
    induction bs with
    | nil => intro st st' h heq; cases heq; exact h
    | cons b bs ih =>
      intro st st' h heq
      have heq : (block v.builtin st b).bind (fun st' => parse v.builtin st' bs) = some st' := heq
      rw [Option.bind_eq_some_iff] at heq
      obtain ⟨t, ht, ht2⟩ := heq
      exact ih t st' (hblock b st t h ht) ht2
  have hcli : ∀ (cli : List Cli) (es : List Entry), (∀ e ∈ es, e.isNull = false) →
      ∀ e ∈ cli.foldl cliIf es, e.isNull = false := by
    intro cli
    induction cli with
    | nil => intro es h; exact h
    | cons c cli ih =>
      intro es h
      refine ih _ ?_
      cases c with
      | opt f x => exact h
      | iface n =>
        show ∀ e ∈ create es n, _
        unfold create
        split
        · exact h
        · intro e he
          rcases List.mem_cons.mp he with rfl | he
          · rfl
          · exact h e he
  unfold run
  cases hp : parse v.builtin { ifs := [], dflt := none } cfg with
  | none => rfl
  | some st =>
    have hst := hparse cfg _ st (fun e he => by cases he) hp
    show check v st.dflt _ = check v st.dflt _
    rw [setDefaults_id _ _ (hcli cli _ hst), setDefaults_id _ _ (hcli _ _ hst), hifs]

/-! ## Examples and negations -/

/-- Comparison of numbers by their first byte; the top bit is the sign. -/
def env : Env where
  builtin := fun i => if i = 80 then 2 else if i = 84 then 20 else if 80 ≤ i ∧ i < 112 then 9 else 0
  neg := fun l => decide (128 ≤ l.getD 0 0)
  lt := fun a b => decide (a.getD 0 0 < b.getD 0 0)
  ratio := fun _ _ => false
  hv := [40, 0, 0, 0]
  poll := [1, 0, 0, 0]
  minTc := true

/-- A file with defaults and two interfaces, one of them in two blocks. -/
def file : List Block :=
  [.iface [[1]] [.field .helloInt [7, 0, 0, 0], .mult 5 100],
   .defaults [.field .helloInt [4, 0, 0, 0], .field .helloVal [255, 0, 0, 0], .mult 0 300, .mult 6 400],
   .iface [[2], [1]] [.field .mode [2, 0, 0, 0]],
   .iface [[1]] [.field .helloInt [6, 0, 0, 0]]]

/-- The names with some settings of a result. -/
def view : Outcome → List (List Nat × List (List UInt8) × List (Nat × Nat))
  | .ok es => es.map fun e => (e.name, [read e.cnf .mode, read e.cnf .helloInt, read e.cnf .helloVal], e.mult)
  | _ => []

example : NoRepeat file := by
  intro names ss h
  simp only [file, List.mem_cons, List.not_mem_nil, or_false, Block.iface.injEq, reduceCtorEq,
    false_or] at h
  rcases h with ⟨rfl, _⟩ | ⟨rfl, _⟩ | ⟨rfl, _⟩ <;> decide

example : Sized file := by
  intro b hb ss hss f x hx
  simp only [file, List.mem_cons, List.not_mem_nil, or_false] at hb
  rcases hb with rfl | rfl | rfl | rfl <;> rcases hss with h | ⟨_, h⟩ <;> cases h <;>
    simp only [List.mem_cons, List.not_mem_nil, or_false, Setting.field.injEq, reduceCtorEq] at hx <;>
    first
    | (rcases hx with ⟨rfl, rfl⟩ | ⟨rfl, rfl⟩ <;> rfl)
    | (rw [hx.1, hx.2]; rfl)

example : view (run env file [.iface [3], .opt .helloInt [3, 0, 0, 0], .iface [1]]) =
    [([3], [[0, 0, 0, 0], [4, 0, 0, 0], [40, 0, 0, 0]], [(0, 300), (6, 400)]),
     ([1], [[2, 0, 0, 0], [6, 0, 0, 0], [40, 0, 0, 0]], [(5, 100), (0, 300), (6, 400)]),
     ([2], [[2, 0, 0, 0], [4, 0, 0, 0], [40, 0, 0, 0]], [(0, 300), (6, 400)])] := by decide +kernel

example : effective env file [1] .helloInt = [6, 0, 0, 0] ∧
    effective env file [3] .helloInt = [4, 0, 0, 0] ∧
    effective env file [3] .helloVal = [40, 0, 0, 0] ∧
    effective env file [3] .tcInt = [9, 9, 9, 9] := by decide +kernel

example : run env [.iface [[1]] [.field .tcInt [10, 0, 0, 0]]] [] = .rejected := rfl

example : actualMult [(5, 100), (0, 200), (5, 101)] [(0, 300), (6, 400)] 5 = 100 ∧
    wantedMult [(5, 100), (0, 200), (5, 101)] [(0, 300), (6, 400)] 5 = 101 ∧
    wantedMult [(5, 100), (0, 200)] [(0, 300), (6, 400)] 6 = 400 ∧
    wantedMult [(5, 100), (0, 200)] [(0, 300), (6, 400)] 7 = 200 := by decide

/-- Without the condition on the blocks it is false: a block that names the interface 2 twice also
changes the interface 1. -/
theorem C130_twice_negation :
    ¬ ∀ (v : Env) (cfg : List Block) (cli : List Cli), Sized cfg → v.hv.length = 4 →
      ∀ es, run v cfg cli = .ok es → ∀ e ∈ es, ∀ f, read e.cnf f = effective v cfg e.name f := by
  intro h
  have hz : Sized [.iface [[1]] [], .iface [[2], [2]] [.field .helloInt [5, 0, 0, 0]]] := by
    intro b hb ss hss f x hx
    simp only [List.mem_cons, List.not_mem_nil, or_false] at hb
    rcases hb with rfl | rfl <;> rcases hss with h | ⟨_, h⟩ <;> cases h <;>
      simp only [List.mem_cons, List.not_mem_nil, or_false, Setting.field.injEq] at hx
    obtain ⟨rfl, rfl⟩ := hx
    rfl
  have h1 := h env [.iface [[1]] [], .iface [[2], [2]] [.field .helloInt [5, 0, 0, 0]]] [] hz rfl
  cases hr : run env [.iface [[1]] [], .iface [[2], [2]] [.field .helloInt [5, 0, 0, 0]]] [] with
  | crash => exact absurd hr (by
      have : view (run env [.iface [[1]] [], .iface [[2], [2]] [.field .helloInt [5, 0, 0, 0]]] []) ≠ [] := by
        decide +kernel
      intro hc
      rw [hc] at this
      exact this rfl)
  | rejected => exact absurd hr (by
      have : view (run env [.iface [[1]] [], .iface [[2], [2]] [.field .helloInt [5, 0, 0, 0]]] []) ≠ [] := by
        decide +kernel
      intro hc
      rw [hc] at this
      exact this rfl)
  | ok es =>
    have hview : view (run env [.iface [[1]] [], .iface [[2], [2]] [.field .helloInt [5, 0, 0, 0]]] []) =
        [([2], [[0, 0, 0, 0], [5, 0, 0, 0], [20, 9, 9, 9]], []),
         ([1], [[0, 0, 0, 0], [5, 0, 0, 0], [20, 9, 9, 9]], [])] := by decide +kernel
    rw [hr] at hview
    have hmem : (([1], [[0, 0, 0, 0], [5, 0, 0, 0], [20, 9, 9, 9]], []) :
        List Nat × List (List UInt8) × List (Nat × Nat)) ∈ view (.ok es) := by
      rw [hview]
      exact List.mem_cons_of_mem _ (List.mem_cons_self ..)
    obtain ⟨e, he, heq⟩ := List.mem_map.mp hmem
    have hx := h1 es hr e he .helloInt
    have hname : e.name = [1] := congrArg Prod.fst heq
    have hval : read e.cnf .helloInt = [5, 0, 0, 0] := congrArg (fun t => t.2.1.getD 1 []) heq
    rw [hval, hname] at hx
    exact absurd hx (by decide +kernel)

/-- If there is no other interface, it crashes. -/
theorem C130_crash_negation :
    ¬ ∀ (v : Env) (cfg : List Block) (cli : List Cli), Sized cfg → v.hv.length = 4 →
      run v cfg cli ≠ .crash := by
  intro h
  refine h env [.iface [[2], [2]] [.mult 0 300]] [] ?_ rfl rfl
  intro b hb ss hss f x hx
  simp only [List.mem_cons, List.not_mem_nil, or_false] at hb
  subst hb
  rcases hss with h | ⟨_, h⟩
  · cases h
  · cases h
    simp at hx

/-- Of two multipliers of an interface for one address the first one counts, unlike everywhere
else. -/
theorem C130_again_negation :
    ¬ ∀ (v : Env) (cfg : List Block) (cli : List Cli), NoRepeat cfg →
      ∀ es, run v cfg cli = .ok es → ∀ a, a ≠ 0 → ∀ e ∈ es,
        (∀ p ∈ mults (own cfg e.name), p.2 ≠ 0) → (∀ p ∈ mults ((lastDefaults cfg).getD []), p.2 ≠ 0) →
        loss a e.mult = wantedMult (mults (own cfg e.name)) (mults ((lastDefaults cfg).getD [])) a := by
  intro h
  have hn : NoRepeat [.iface [[1]] [.mult 5 100, .mult 5 200]] := by
    intro names ss hm
    simp only [List.mem_cons, List.not_mem_nil, or_false, Block.iface.injEq] at hm
    rw [hm.1]
    decide
  have := h env [.iface [[1]] [.mult 5 100, .mult 5 200]] [] hn _ rfl 5 (by decide) _
    (List.mem_cons_self ..) (by decide +kernel) (by decide +kernel)
  exact absurd this (by decide +kernel)

/-- The multiplier 0, which is accepted, means 1. -/
theorem C130_zero_negation :
    ¬ ∀ (v : Env) (cfg : List Block) (cli : List Cli), NoRepeat cfg →
      ∀ es, run v cfg cli = .ok es → ∀ a, a ≠ 0 → ∀ e ∈ es,
        (valuesFor a (mults (own cfg e.name))).length ≤ 1 →
        (valuesFor 0 (mults ((lastDefaults cfg).getD []))).length ≤ 1 →
        loss a e.mult = wantedMult (mults (own cfg e.name)) (mults ((lastDefaults cfg).getD [])) a := by
  intro h
  have hn : NoRepeat [.iface [[1]] [.mult 5 0]] := by
    intro names ss hm
    simp only [List.mem_cons, List.not_mem_nil, or_false, Block.iface.injEq] at hm
    rw [hm.1]
    decide
  have := h env [.iface [[1]] [.mult 5 0]] [] hn _ rfl 5 (by decide) _
    (List.mem_cons_self ..) (by decide +kernel) (by decide +kernel)
  exact absurd this (by decide +kernel)

/-- An interval given on the command line together with an interface is not used. -/
theorem C130_cli_negation :
    ¬ ∀ (v : Env) (n : List Nat) (x : List UInt8), x.length = 4 → ∀ es,
      run v [] [.opt .helloInt x, .iface n] = .ok es → ∀ e ∈ es, read e.cnf .helloInt = x := by
  intro h
  have := h env [1] [5, 0, 0, 0] rfl _ rfl _ (List.mem_cons_self ..)
  exact absurd this (by decide +kernel)

end Verif.Conf
