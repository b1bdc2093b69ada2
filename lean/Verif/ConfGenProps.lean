import Verif.ConfGenLemmas

/-!
# C131: the generated configuration describes the running one

`C131_values_partial` and `C131_mult_partial`: a daemon that is started with the generated
configuration has the same interfaces with the same settings and multipliers, under conditions that
the code needs. `C131_back_negation`, `C131_lost_negation` and `C131_auto_negation` show that they are
needed.
-/

namespace Verif.Conf

/-- Printing loses nothing of the intervals and holding times. -/
def Short (p : Print) (m : Mem) : Prop :=
  ∀ f ∈ [Field.helloInt, .helloVal, .tcInt, .tcVal, .midInt, .midVal, .hnaInt, .hnaVal],
    p.secs (read m f) = read m f

/-- The built-in settings have no addresses and no fixed weight
(src/cfgparser/olsrd_conf.c:1201-1231). -/
def Standard (v : Env) : Prop :=
  read v.builtin .ipv4mc = [0, 0, 0, 0] ∧ read v.builtin .ipv4src = [0, 0, 0, 0] ∧
  read v.builtin .ipv6src = List.replicate 17 0 ∧ read v.builtin .weight = List.replicate 5 0

/-- Nothing that cannot be written differs from the built-in settings: `AutoDetectChanges`, a source
prefix of length 0, a weight that is not fixed. -/
def Told (v : Env) (m : Mem) : Prop :=
  read m .autodet = read v.builtin .autodet ∧
  ((read m .ipv6src).getD 16 0 = 0 → read m .ipv6src = List.replicate 17 0) ∧
  ((read m .weight).getD 4 0 = 0 → read m .weight = List.replicate 5 0)

/-- The interface does not go back to a built-in value where the defaults have another. -/
def NotBack (v : Env) (d m : Mem) : Prop :=
  ∀ f, read m f = read v.builtin f → read d f = read v.builtin f

private theorem short_shown (p : Print) (m : Mem) (h : Short p m) (f : Field) :
    shown p f (read m f) = read m f := by
  unfold Short at h
  cases f <;> first | rfl | exact h _ (by decide)

private theorem told_plain (v : Env) (hstd : Standard v) (m : Mem) (h : Told v m) (f : Field)
    (hp : plain v f (read m f) = true) : read m f = read v.builtin f := by
  obtain ⟨s1, s2, s3, s4⟩ := hstd
  obtain ⟨h1, h2, h3⟩ := h
  cases f with
  | ipv4mc => rw [s1]; exact eq_of_beq hp
  | ipv4src => rw [s2]; exact eq_of_beq hp
  | ipv6src => rw [s3]; exact h2 (eq_of_beq hp)
  | weight => rw [s4]; exact h3 (eq_of_beq hp)
  | autodet => exact h1
  | _ => exact eq_of_beq hp

private theorem effective_write (v : Env) (p : Print) (d : Mem × List (Nat × Nat))
    (es : List Entry) (hstd : Standard v) (hn : (es.map Entry.name).Nodup) (hd : Short p d.1)
    (he : ∀ e ∈ es, Short p e.cnf ∧ Told v e.cnf ∧ NotBack v d.1 e.cnf) (e : Entry) (hm : e ∈ es)
    (f : Field) :
    wanted v (writeCnf v p d es) e.name f = read e.cnf f := by
  obtain ⟨h1, h2, h3⟩ := he e hm
  obtain ⟨c, hc, _⟩ := own_writeIfs v p es true hn e hm
  unfold wanted
  rw [own_write, hc, lastOf_write, lastDefaults_write, Option.getD_some, lastOf_write]
  cases hp : plain v f (read e.cnf f) with
  | false => exact short_shown p e.cnf h1 f
  | true =>
    have hb := told_plain v hstd e.cnf h2 f hp
    have hdb := h3 f hb
    rw [if_pos rfl, Option.getD_none]
    cases hq : plain v f (read d.1 f) with
    | true => exact hb.symm
    | false =>
      show shown p f (read d.1 f) = _
      rw [short_shown p d.1 hd f, hdb, hb]

private theorem helloVal_fixed (v : Env) (cfg : List Block) (n : List Nat) :
    v.neg (effective v cfg n .helloVal) = true → effective v cfg n .helloVal = v.hv := by
  intro h
  unfold effective at h ⊢
  by_cases hc : Field.helloVal = .helloVal ∧ v.neg (wanted v cfg n .helloVal) = true
  · rw [if_pos hc]
  · rw [if_neg hc] at h
    exact absurd ⟨rfl, h⟩ hc

/-- The daemon that is started with the generated configuration starts, and has the same
interfaces with the same settings. Partial: the numbers are short enough for the output, nothing
without a line differs from the built-in value (`AutoDetectChanges`, an IPv6 source prefix of length
0), and no interface goes back to a built-in value where the defaults have another. -/
theorem C131_values_partial (v : Env) (p : Print) (cfg : List Block) (cli : List Cli)
    (hstd : Standard v)
    (hr : NoRepeat cfg) (hs : Sized cfg) (hv : v.hv.length = 4) (d : Mem × List (Nat × Nat))
    (es : List Entry) (h : started v cfg cli = some (d, es)) (hd : Short p d.1)
    (he : ∀ e ∈ es, Short p e.cnf ∧ Told v e.cnf ∧ NotBack v d.1 e.cnf)
    (hp : ∀ x, p.mult x ≤ 65536 ↔ x ≤ 65536) :
    ∃ es', run v (writeCnf v p d es) [] = .ok es' ∧
      (∀ n, n ∈ es'.map Entry.name ↔ n ∈ es.map Entry.name) ∧
      ∀ e ∈ es, ∀ e' ∈ es', e'.name = e.name → ∀ f, read e'.cnf f = read e.cnf f := by
  have hrun := started_run v cfg cli d es h
  obtain ⟨hn, _, hval⟩ := C130_values_partial v cfg cli hr hs hv es hrun
  have hok := run_ok v cfg cli es hrun
  have hnr := noRepeat_write v p d es
  have hsz : Sized (writeCnf v p d es) := sized_write v p d es (short_shown p d.1 hd)
    fun e hm => short_shown p e.cnf (he e hm).1
  have heff : ∀ e ∈ es, ∀ f, effective v (writeCnf v p d es) e.name f = read e.cnf f := by
    intro e hm f
    unfold effective
    rw [effective_write v p d es hstd hn hd he e hm f]
    by_cases hc : f = .helloVal ∧ v.neg (read e.cnf f) = true
    · rw [if_pos hc]
      obtain ⟨rfl, hc⟩ := hc
      rw [hval e hm] at hc ⊢
      exact (helloVal_fixed v cfg e.name hc).symm
    · rw [if_neg hc]
  have hacc : ∀ n, n ∈ fileNames (writeCnf v p d es) ∨ n ∈ cliNames [] →
      Acceptable v (writeCnf v p d es) n := by
    intro n hnm
    rcases hnm with hnm | hnm
    · rw [fileNames_write] at hnm
      obtain ⟨e, hm, rfl⟩ := List.mem_map.mp hnm
      obtain ⟨hne, hbad⟩ := hok e hm
      unfold bad badPair at hbad
      simp only [Bool.or_eq_false_iff, Bool.and_eq_false_iff, List.any_eq_false,
        decide_eq_true_eq] at hbad
      obtain ⟨⟨⟨⟨⟨b1, b2⟩, b3⟩, b4⟩, b5⟩, b6⟩ := hbad
      unfold Acceptable Allowed
      simp only [heff e hm]
      refine ⟨hne, b1, b2, b4, b5, ?_, ?_, ?_⟩
      · intro hmt
        rcases b3 with b3 | b3
        · rw [hmt] at b3; cases b3
        · exact b3
      · obtain ⟨c, hc, _⟩ := own_writeIfs v p es true hn e hm
        rw [own_write, hc, mults_write]
        intro q hq
        cases c with
        | false => cases hq
        | true =>
          obtain ⟨r, hrm, rfl⟩ := List.mem_map.mp hq
          have := b6 r hrm
          exact (hp r.2).mpr (by omega)
      · rw [lastDefaults_write, Option.getD_some, mults_write]
        intro q hq
        cases hq
    · cases hnm
  obtain ⟨es', hes'⟩ := (C130_check v (writeCnf v p d es) [] hnr hsz hv).1.mpr hacc
  obtain ⟨_, hn', hval'⟩ := C130_values_partial v (writeCnf v p d es) [] hnr hsz hv es' hes'
  refine ⟨es', hes', ?_, ?_⟩
  · intro n
    rw [hn', fileNames_write]
    constructor
    · rintro (hh | hh)
      · exact hh
      · cases hh
    · exact Or.inl
  · intro e hm e' hm' hname f
    rw [hval' e' hm' f, hname]
    exact heff e hm f

private theorem actual_none (l : List (Nat × Nat)) (a : Nat)
    (hd : (l.map Prod.fst).Nodup) (hz : ∀ q ∈ l, q.2 ≠ 0) :
    actualMult l [] a = loss a l := by
  have two : ∀ (l : List (Nat × Nat)) (b : Nat), (l.map Prod.fst).Nodup →
      (valuesFor b l).length ≤ 1 := by
    intro l b
    induction l with
    | nil => intro _; exact Nat.zero_le _
    | cons q l ih =>
      intro hd
      rw [List.map_cons, List.nodup_cons] at hd
      unfold valuesFor
      by_cases hb : q.1 = b
      · have : List.filterMap (fun p => if p.1 = b then some p.2 else none) l = [] := by
          rw [List.filterMap_eq_nil_iff]
          intro r hr
          rw [if_neg]
          intro hh
          exact hd.1 (by rw [hb, ← hh]; exact List.mem_map_of_mem hr)
        rw [List.filterMap_cons_some (b := q.2) (by simp [hb]), this]
        exact Nat.le_refl _
      · rw [List.filterMap_cons_none (by simp [hb])]
        exact ih hd.2
  have key : ∀ (l : List (Nat × Nat)) (val : Nat), (∀ q ∈ l, q.2 ≠ 0) →
      lossLoop a val l = ((valuesFor a l).getLast?).getD
        (if val ≠ 0 then val else ((valuesFor 0 l).head?).getD 0) := by
    intro l
    induction l with
    | nil =>
      intro val _
      show val = if val ≠ 0 then val else 0
      split <;> omega
    | cons p l ih =>
      intro val hz
      have hp := hz p (List.mem_cons_self ..)
      have ih := fun val => ih val (fun q hq => hz q (List.mem_cons_of_mem _ hq))
      show lossLoop a (if (p.1 = 0 ∧ val = 0) ∨ p.1 = a then p.2 else val) l = _
      rw [ih]
      unfold valuesFor
      by_cases h1 : p.1 = a
      · rw [if_pos (Or.inr h1), if_pos hp, List.filterMap_cons_some (b := p.2) (by simp [h1]),
          List.getLast?_cons, Option.getD_some]
      · rw [List.filterMap_cons_none (a := p) (l := l)
          (f := fun p => if p.1 = a then some p.2 else none) (by simp [h1])]
        by_cases h0 : p.1 = 0
        · rw [List.filterMap_cons_some (a := p) (l := l)
            (f := fun p => if p.1 = 0 then some p.2 else none) (b := p.2) (by simp [h0])]
          by_cases hv : val = 0
          · rw [if_pos (Or.inl ⟨h0, hv⟩), if_pos hp, if_neg (by omega : ¬ val ≠ 0)]
            rfl
          · rw [if_neg (by omega : ¬ ((p.1 = 0 ∧ val = 0) ∨ p.1 = a)), if_pos hv, if_pos hv]
        · rw [List.filterMap_cons_none (a := p) (l := l)
            (f := fun p => if p.1 = 0 then some p.2 else none) (by simp [h0]),
            if_neg (by omega : ¬ ((p.1 = 0 ∧ val = 0) ∨ p.1 = a))]
  have one : ∀ l : List Nat, l.length ≤ 1 → (∀ x ∈ l, x ≠ 0) →
      l = [] ∨ ∃ x, x ≠ 0 ∧ l = [x] := by
    intro l hl hx
    match l, hl, hx with
    | [], _, _ => exact Or.inl rfl
    | [x], _, hx => exact Or.inr ⟨x, hx x (List.mem_cons_self ..), rfl⟩
  have nz : ∀ b x, x ∈ valuesFor b l → x ≠ 0 := by
    intro b x hx
    unfold valuesFor at hx
    obtain ⟨q, hq, hqx⟩ := List.mem_filterMap.mp hx
    by_cases hb : q.1 = b
    · rw [if_pos hb] at hqx; cases hqx; exact hz q hq
    · rw [if_neg hb] at hqx; cases hqx
  unfold loss actualMult
  rw [key l 0 hz, if_neg (by omega : ¬ (0 : Nat) ≠ 0)]
  rcases one _ (two l a hd) (nz a) with h1 | ⟨x, hx, h1⟩ <;>
    rcases one _ (two l 0 hd) (nz 0) with h0 | ⟨y, hy, h0⟩ <;> rw [h1, h0]
  · rfl
  · show y = if y = 0 then 65536 else y
    rw [if_neg hy]
  · show x = if x = 0 then 65536 else x
    rw [if_neg hx]
  · show x = if x = 0 then 65536 else x
    rw [if_neg hx]

/-- Links get the same multipliers. Partial: only the first interface has multipliers (counting those
of the defaults), for different addresses and none of them 0, and printing loses nothing of
them. -/
theorem C131_mult_partial (v : Env) (p : Print) (cfg : List Block) (cli : List Cli)
    (hr : NoRepeat cfg) (hs : Sized cfg) (hv : v.hv.length = 4) (d : Mem × List (Nat × Nat))
    (e0 : Entry) (rest : List Entry) (h : started v cfg cli = some (d, e0 :: rest))
    (hrest : ∀ e ∈ rest, e.mult = [])
    (hd : (e0.mult.map Prod.fst).Nodup) (hz : ∀ q ∈ e0.mult, q.2 ≠ 0 ∧ p.mult q.2 = q.2)
    (es' : List Entry) (h' : run v (writeCnf v p d (e0 :: rest)) [] = .ok es')
    (a : Nat) (ha : a ≠ 0) :
    ∀ e ∈ e0 :: rest, ∀ e' ∈ es', e'.name = e.name → loss a e'.mult = loss a e.mult := by
  intro e hm e' hm' hname
  have hrun := started_run v cfg cli d _ h
  obtain ⟨hn, _, _⟩ := C130_values_partial v cfg cli hr hs hv _ hrun
  obtain ⟨c, hc, hfirst⟩ := own_writeIfs v p (e0 :: rest) true hn e hm
  have hown : mults (own (writeCnf v p d (e0 :: rest)) e'.name) = e.mult := by
    rw [hname, own_write, hc, mults_write]
    rcases List.mem_cons.mp hm with rfl | hm2
    · rw [hfirst _ _ rfl rfl, if_pos rfl]
      have : ∀ l : List (Nat × Nat), (∀ q ∈ l, q.2 ≠ 0 ∧ p.mult q.2 = q.2) →
          l.map (fun q => (q.1, p.mult q.2)) = l := by
        intro l hl
        rw [List.map_congr_left (g := fun q => q), List.map_id']
        intro q hq
        rw [(hl q hq).2]
      exact this _ hz
    · rw [hrest e hm2]
      cases c <;> rfl
  have hdm : mults ((lastDefaults (writeCnf v p d (e0 :: rest))).getD []) = [] := by
    rw [lastDefaults_write, Option.getD_some, mults_write]
    rfl
  have hzz : ∀ q ∈ e.mult, q.2 ≠ 0 := by
    rcases List.mem_cons.mp hm with rfl | hm2
    · exact fun q hq => (hz q hq).1
    · rw [hrest e hm2]; intro q hq; cases hq
  have hdd : (e.mult.map Prod.fst).Nodup := by
    rcases List.mem_cons.mp hm with rfl | hm2
    · exact hd
    · rw [hrest e hm2]; exact List.nodup_nil
  rw [C130_mult v _ [] (noRepeat_write v p d _) es' h' a ha e' hm'
    (by rw [hown]; exact hzz) (by rw [hdm]; intro q hq; cases hq), hown, hdm]
  exact actual_none e.mult a hdd hzz

/-! ## Examples and negations -/

/-- Numbers survive printing. -/
def exact : Print where
  secs := fun x => x
  mult := fun x => x

/-- Two interfaces and other defaults. -/
def file2 : List Block :=
  [.defaults [.field .mode [1, 0, 0, 0], .field .tcInt [4, 0, 0, 0]],
   .iface [[1]] [.field .helloInt [3, 0, 0, 0]],
   .iface [[2]] [.field .mode [2, 0, 0, 0], .mult 5 100, .mult 0 200]]

/-- The generated statements of a started daemon. -/
def generated (v : Env) (p : Print) (cfg : List Block) (cli : List Cli) : List Block :=
  match started v cfg cli with
  | some (d, es) => writeCnf v p d es
  | none => []

example : generated env exact file2 [] =
    [.defaults [.field .mode [1, 0, 0, 0], .field .tcInt [4, 0, 0, 0]],
     .iface [[2]] [.field .mode [2, 0, 0, 0], .field .tcInt [4, 0, 0, 0], .mult 0 200, .mult 5 100],
     .iface [[1]] [.field .mode [1, 0, 0, 0], .field .helloInt [3, 0, 0, 0],
       .field .tcInt [4, 0, 0, 0]]] := by decide +kernel

example : ∃ d es, started env file2 [] = some (d, es) ∧ es.map Entry.name = [[2], [1]] ∧
    Short exact d.1 ∧ ∀ e ∈ es, Short exact e.cnf ∧ Told env e.cnf ∧ NotBack env d.1 e.cnf := by
  refine ⟨_, _, rfl, rfl, ?_, ?_⟩
  · intro f _
    rfl
  · intro e he
    rcases List.mem_cons.mp he with rfl | he
    · refine ⟨fun f _ => rfl, ⟨by decide +kernel, by decide +kernel, by decide +kernel⟩, fun f => ?_⟩
      cases f <;> decide +kernel
    · rcases List.mem_cons.mp he with rfl | he
      · refine ⟨fun f _ => rfl, ⟨by decide +kernel, by decide +kernel, by decide +kernel⟩, fun f => ?_⟩
        cases f <;> decide +kernel
      · cases he

example : Standard env := ⟨by decide +kernel, by decide +kernel, by decide +kernel, by decide +kernel⟩

/-- The settings of interface `n` in a result. -/
def settingOf (n : List Nat) (f : Field) : Outcome → Option (List UInt8)
  | .ok es => (es.find? fun e => e.name == n).map fun e => read e.cnf f
  | _ => none

/-- The multiplier of a link over interface `n` in a result. -/
def lossOf (n : List Nat) (a : Nat) : Outcome → Option Nat
  | .ok es => (es.find? fun e => e.name == n).map fun e => loss a e.mult
  | _ => none

example : settingOf [1] .mode (run env file2 []) = some [1, 0, 0, 0] ∧
    settingOf [1] .mode (run env (generated env exact file2 []) []) = some [1, 0, 0, 0] ∧
    settingOf [2] .tcInt (run env (generated env exact file2 []) []) = some [4, 0, 0, 0] ∧
    lossOf [2] 5 (run env (generated env exact file2 []) []) = some 100 ∧
    lossOf [2] 6 (run env (generated env exact file2 []) []) = some 200 := by decide +kernel

/-- An interface that goes back to the built-in mode has the mode of the defaults in the generated
configuration. -/
theorem C131_back_negation :
    ¬ ∀ (v : Env) (p : Print) (cfg : List Block) (n : List Nat), (∀ x, p.secs x = x) →
      settingOf n .mode (run v (generated v p cfg []) []) = settingOf n .mode (run v cfg []) := by
  intro h
  have := h env exact [.defaults [.field .mode [1, 0, 0, 0]], .iface [[1]] [.field .mode [0, 0, 0, 0]]]
    [1] (fun _ => rfl)
  exact absurd this (by decide +kernel)

/-- The multipliers of the second interface are lost. -/
theorem C131_lost_negation :
    ¬ ∀ (v : Env) (p : Print) (cfg : List Block) (n : List Nat) (a : Nat), (∀ x, p.mult x = x) →
      a ≠ 0 →
      lossOf n a (run v (generated v p cfg []) []) = lossOf n a (run v cfg []) := by
  intro h
  have := h env exact [.iface [[2]] [.mult 5 100], .iface [[1]] []] [2] 5 (fun _ => rfl) (by decide)
  exact absurd this (by decide +kernel)

/-- `AutoDetectChanges` is not written. -/
theorem C131_auto_negation :
    ¬ ∀ (v : Env) (p : Print) (cfg : List Block) (n : List Nat), (∀ x, p.secs x = x) →
      settingOf n .autodet (run v (generated v p cfg []) []) =
        settingOf n .autodet (run v cfg []) := by
  intro h
  have := h env exact [.iface [[1]] [.field .autodet [1]]] [1] (fun _ => rfl)
  exact absurd this (by decide +kernel)

end Verif.Conf
