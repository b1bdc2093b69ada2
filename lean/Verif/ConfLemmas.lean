import Verif.ConfSpec

/-! # Lemmas about the interface settings -/

namespace Verif.Conf

/-! ## Fields -/

theorem apart (f g : Field) : f ≠ g → f.off + f.len ≤ g.off ∨ g.off + g.len ≤ f.off := by
  cases f <;> cases g <;> decide

theorem inside (f : Field) : f.off + f.len ≤ size := by cases f <;> decide

theorem write_same (m : Mem) (f : Field) (v : List UInt8) (j : Nat) (h : j < f.len) :
    write m f v (f.off + j) = v.getD j 0 := by
  unfold write
  rw [if_pos ⟨by omega, by omega⟩, Nat.add_sub_cancel_left]

theorem write_other (m : Mem) (f g : Field) (v : List UInt8) (j : Nat) (h : j < f.len)
    (hne : g ≠ f) : write m g v (f.off + j) = m (f.off + j) := by
  unfold write
  rw [if_neg]
  rcases apart g f hne with h1 | h1 <;> omega

theorem range_getD (v : List UInt8) (n : Nat) (h : v.length = n) :
    (List.range n).map (fun j => v.getD j 0) = v := by
  subst h
  apply List.ext_getElem
  · simp
  · intro i h1 h2
    simp at h1
    simp [List.getD_eq_getElem?_getD, h1]

theorem read_write_same (m : Mem) (f : Field) (v : List UInt8) (h : v.length = f.len) :
    read (write m f v) f = v := by
  unfold read
  rw [List.map_congr_left (g := fun j => v.getD j 0)]
  · exact range_getD v _ h
  · intro j hj
    exact write_same m f v j (List.mem_range.mp hj)

theorem read_write_other (m : Mem) (f g : Field) (v : List UInt8) (hne : g ≠ f) :
    read (write m g v) f = read m f := by
  unfold read
  apply List.map_congr_left
  intro j hj
  exact write_other m f g v j (List.mem_range.mp hj) hne

/-! ## Statements on one interface -/

/-- An interface after the statements. -/
def after (ss : List Setting) (e : Entry) : Entry := ss.foldl (fun e s => setOne s e) e

theorem after_cons (s : Setting) (ss : List Setting) (e : Entry) :
    after (s :: ss) e = after ss (setOne s e) := rfl

theorem after_append (a b : List Setting) (e : Entry) :
    after (a ++ b) e = after b (after a e) := by
  unfold after
  rw [List.foldl_append]

theorem setOne_name (s : Setting) (e : Entry) : (setOne s e).name = e.name := by
  cases s <;> rfl

theorem setOne_null (s : Setting) (e : Entry) : (setOne s e).isNull = e.isNull := by
  cases s <;> rfl

theorem after_name (ss : List Setting) : ∀ e, (after ss e).name = e.name := by
  induction ss with
  | nil => intro e; rfl
  | cons s ss ih => intro e; rw [after_cons, ih, setOne_name]

theorem after_null (ss : List Setting) : ∀ e, (after ss e).isNull = e.isNull := by
  induction ss with
  | nil => intro e; rfl
  | cons s ss ih => intro e; rw [after_cons, ih, setOne_null]

theorem after_mult (ss : List Setting) : ∀ e, (after ss e).mult = (mults ss).reverse ++ e.mult := by
  induction ss with
  | nil => intro e; rfl
  | cons s ss ih =>
    intro e
    rw [after_cons, ih]
    cases s with
    | field f v => rfl
    | mult a v =>
      show _ ++ (a, v) :: e.mult = ((a, v) :: mults ss).reverse ++ e.mult
      rw [List.reverse_cons, List.append_assoc]
      rfl

theorem lastOf_cons (f : Field) (s : Setting) (ss : List Setting) :
    lastOf f (s :: ss) = (lastOf f ss).or (s.value f) := by
  unfold lastOf
  rw [List.filterMap_cons]
  cases h : s.value f with
  | none => simp
  | some x =>
    show (x :: _).getLast? = _
    rw [List.getLast?_cons]
    cases (List.filterMap (Setting.value f) ss).getLast? <;> rfl

theorem setOne_byte (f : Field) (s : Setting) (e : Entry) (j : Nat) (h : j < f.len) :
    (setOne s e).cnf (f.off + j) = ((s.value f).map fun v => v.getD j 0).getD (e.cnf (f.off + j)) ∧
    (setOne s e).cnfi (f.off + j) =
      ((s.value f).map fun v => v.getD j 0).getD (e.cnfi (f.off + j)) := by
  cases s with
  | mult a v => exact ⟨rfl, rfl⟩
  | field g v =>
    by_cases hg : g = f
    · subst hg
      simp only [setOne, Setting.value, if_true, Option.map_some, Option.getD_some]
      exact ⟨write_same _ _ _ _ h, write_same _ _ _ _ h⟩
    · simp only [setOne, Setting.value, if_neg hg, Option.map_none, Option.getD_none]
      exact ⟨write_other _ _ _ _ _ h hg, write_other _ _ _ _ _ h hg⟩

theorem after_byte (f : Field) (j : Nat) (h : j < f.len) (ss : List Setting) : ∀ e,
    (after ss e).cnf (f.off + j) =
      ((lastOf f ss).map fun v => v.getD j 0).getD (e.cnf (f.off + j)) ∧
    (after ss e).cnfi (f.off + j) =
      ((lastOf f ss).map fun v => v.getD j 0).getD (e.cnfi (f.off + j)) := by
  induction ss with
  | nil => intro e; exact ⟨rfl, rfl⟩
  | cons s ss ih =>
    intro e
    rw [after_cons, (ih _).1, (ih _).2, lastOf_cons, (setOne_byte f s e j h).1,
      (setOne_byte f s e j h).2]
    cases lastOf f ss <;> cases s.value f <;> exact ⟨rfl, rfl⟩

theorem lastOf_mem (f : Field) (ss : List Setting) (x : List UInt8) (h : lastOf f ss = some x) :
    Setting.field f x ∈ ss := by
  unfold lastOf at h
  have := List.mem_of_getLast? h
  rw [List.mem_filterMap] at this
  obtain ⟨s, hs, hv⟩ := this
  cases s with
  | mult a v => cases hv
  | field g v =>
    by_cases hg : g = f
    · subst hg
      simp only [Setting.value, if_true] at hv
      cases hv
      exact hs
    · simp only [Setting.value, if_neg hg] at hv
      cases hv

theorem read_after (f : Field) (ss : List Setting) (e : Entry)
    (hs : ∀ x, Setting.field f x ∈ ss → x.length = f.len) :
    read (after ss e).cnf f = (lastOf f ss).getD (read e.cnf f) := by
  cases h : lastOf f ss with
  | none =>
    unfold read
    apply List.map_congr_left
    intro j hj
    rw [(after_byte f j (List.mem_range.mp hj) ss e).1, h]
    rfl
  | some x =>
    show _ = x
    rw [← range_getD x f.len (hs x (lastOf_mem f ss x h))]
    unfold read
    apply List.map_congr_left
    intro j hj
    rw [(after_byte f j (List.mem_range.mp hj) ss e).1, h]
    rfl

/-- An interface with the statements. -/
def made (n : List Nat) (ss : List Setting) : Entry := after ss (fresh n)

theorem made_nil (n : List Nat) : made n [] = fresh n := rfl

theorem made_name (n : List Nat) (ss : List Setting) : (made n ss).name = n := after_name ss _

theorem made_null (n : List Nat) (ss : List Setting) : (made n ss).isNull = false := after_null ss _

theorem made_mult (n : List Nat) (ss : List Setting) : (made n ss).mult = (mults ss).reverse := by
  unfold made
  rw [after_mult]
  exact List.append_nil _

/-! ## The merge -/

theorem read_merge (d : Mem) (f : Field) (n : List Nat) (ss : List Setting)
    (hs : ∀ x, Setting.field f x ∈ ss → x.length = f.len) :
    read (mergeCnf d (made n ss).cnf (made n ss).cnfi) f = (lastOf f ss).getD (read d f) := by
  have hb := fun j (hj : j < f.len) => after_byte f j hj ss (fresh n)
  have hin := inside f
  cases h : lastOf f ss with
  | none =>
    unfold read
    apply List.map_congr_left
    intro j hj
    have hj := List.mem_range.mp hj
    obtain ⟨h1, h2⟩ := hb j hj
    rw [h] at h1 h2
    unfold mergeCnf made
    rw [h1, h2]
    exact if_pos ⟨by omega, by show (0 : UInt8) ≠ 0xFF; decide⟩
  | some x =>
    show _ = x
    rw [← range_getD x f.len (hs x (lastOf_mem f ss x h))]
    unfold read
    apply List.map_congr_left
    intro j hj
    have hj := List.mem_range.mp hj
    obtain ⟨h1, h2⟩ := hb j hj
    rw [h] at h1 h2
    unfold mergeCnf made
    rw [h1, h2]
    exact if_neg fun hh => hh.2 rfl

theorem mark_merge (f : Field) (n : List Nat) (ss : List Setting) (j : Nat) (hj : j < f.len) :
    mergeCnfi (made n ss).cnf (made n ss).cnfi (f.off + j) =
      if (lastOf f ss).isSome then 0xFF else 0 := by
  obtain ⟨h1, h2⟩ := after_byte f j hj ss (fresh n)
  have hin := inside f
  unfold mergeCnfi made
  rw [h1, h2, if_pos (by omega)]
  cases h : lastOf f ss with
  | none =>
    show (if (0 : UInt8) ≠ 0xFF then (0 : UInt8) else 0xFF) = _
    decide
  | some x => exact if_neg fun hh => hh rfl

theorem read_fix (v : Env) (m : Mem) (f : Field) (hv : v.hv.length = 4) :
    read (fixHello v m) f =
      if f = .helloVal ∧ v.neg (read m f) = true then v.hv else read m f := by
  unfold fixHello
  by_cases hn : v.neg (read m .helloVal) = true
  · rw [if_pos hn]
    by_cases hf : f = .helloVal
    · subst hf
      rw [if_pos ⟨rfl, hn⟩]
      exact read_write_same _ _ _ hv
    · rw [if_neg (fun h => hf h.1)]
      exact read_write_other _ _ _ _ (fun h => hf h.symm)
  · rw [if_neg hn, if_neg]
    rintro ⟨rfl, h⟩
    exact hn h

/-! ## The blocks -/

theorem own_append (a b : List Block) (n : List Nat) : own (a ++ b) n = own a n ++ own b n := by
  unfold own
  rw [List.flatMap_append]

theorem fileNames_append (a b : List Block) :
    fileNames (a ++ b) = fileNames a ++ fileNames b := by
  unfold fileNames
  rw [List.flatMap_append]

theorem own_of_not_named (cfg : List Block) (n : List Nat) (h : n ∉ fileNames cfg) :
    own cfg n = [] := by
  unfold own
  rw [List.flatMap_eq_nil_iff]
  intro b hb
  cases b with
  | defaults ss => rfl
  | iface names ss =>
    show (if n ∈ names then ss else []) = []
    rw [if_neg]
    intro hn
    exact h (List.mem_flatMap.mpr ⟨_, hb, hn⟩)

theorem lastDefaults_append_iface (cfg : List Block) (names : List (List Nat)) (ss : List Setting) :
    lastDefaults (cfg ++ [.iface names ss]) = lastDefaults cfg := by
  unfold lastDefaults
  rw [List.filterMap_append]
  show (_ ++ []).getLast? = _
  rw [List.append_nil]

theorem lastDefaults_append_defaults (cfg : List Block) (ss : List Setting) :
    lastDefaults (cfg ++ [.defaults ss]) = some ss := by
  unfold lastDefaults
  rw [List.filterMap_append]
  show (_ ++ [ss]).getLast? = _
  rw [List.getLast?_append]
  rfl

theorem setFirst_append (s : Setting) : ∀ (a b : List Entry),
    setFirst s a.length (a ++ b) = some (a.map (setOne s) ++ b) := by
  intro a
  induction a with
  | nil => intro b; cases b <;> rfl
  | cons e a ih =>
    intro b
    show (setFirst s a.length (a ++ b)).map _ = _
    rw [ih]
    rfl

theorem setAll_append (ss : List Setting) : ∀ (a b : List Entry),
    setAll ss a.length (a ++ b) = some (a.map (after ss) ++ b) := by
  induction ss with
  | nil =>
    intro a b
    show some (a ++ b) = some (a.map (fun e => e) ++ b)
    rw [List.map_id']
  | cons s ss ih =>
    intro a b
    show (setFirst s a.length (a ++ b)).bind (setAll ss a.length) = _
    rw [setFirst_append]
    have := ih (a.map (setOne s)) b
    rw [List.length_map] at this
    show setAll ss a.length _ = _
    rw [this, List.map_map]
    rfl

theorem takeOut_none (n : List Nat) (g : List Nat → Entry) (hg : ∀ n, (g n).name = n) :
    ∀ ns : List (List Nat), n ∉ ns → takeOut n (ns.map g) = none := by
  intro ns
  induction ns with
  | nil => intro _; rfl
  | cons m ns ih =>
    intro h
    rw [List.mem_cons, not_or] at h
    show (if (g m).name = n then _ else _) = _
    rw [hg, if_neg (fun hh => h.1 hh.symm), ih h.2]
    rfl

theorem takeOut_some (n : List Nat) (g : List Nat → Entry) (hg : ∀ n, (g n).name = n) :
    ∀ ns : List (List Nat), ns.Nodup → n ∈ ns →
      takeOut n (ns.map g) = some (g n, (ns.filter fun m => decide (m ≠ n)).map g) := by
  intro ns
  induction ns with
  | nil => intro _ h; cases h
  | cons m ns ih =>
    intro hd hm
    rw [List.nodup_cons] at hd
    show (if (g m).name = n then _ else _) = _
    rw [hg]
    by_cases hmn : m = n
    · subst hmn
      rw [if_pos rfl, List.filter_cons_of_neg (by simp)]
      rw [List.filter_eq_self.mpr]
      intro a ha
      rw [decide_eq_true_eq]
      rintro rfl
      exact hd.1 ha
    · rw [if_neg hmn, List.filter_cons_of_pos (by simp [hmn])]
      rcases List.mem_cons.mp hm with rfl | hm
      · exact absurd rfl hmn
      · rw [ih hd.2 hm]
        rfl

/-- The names after one name in the head of a block. -/
def front (ns : List (List Nat)) (n : List Nat) : List (List Nat) :=
  n :: ns.filter fun m => decide (m ≠ n)

theorem front_nodup (ns : List (List Nat)) (n : List Nat) (h : ns.Nodup) : (front ns n).Nodup := by
  unfold front
  rw [List.nodup_cons]
  refine ⟨fun hm => ?_, h.sublist List.filter_sublist⟩
  have := (List.mem_filter.mp hm).2
  simp at this

theorem mem_front (ns : List (List Nat)) (n m : List Nat) : m ∈ front ns n ↔ m = n ∨ m ∈ ns := by
  unfold front
  rw [List.mem_cons, List.mem_filter, decide_eq_true_eq]
  by_cases h : m = n <;> simp [h]

theorem nick_map (g : List Nat → Entry) (hg : ∀ n, (g n).name = n) (ns : List (List Nat))
    (hd : ns.Nodup) (n : List Nat) (hn : n ∈ ns ∨ g n = fresh n) :
    nick (ns.map g) n = (front ns n).map g := by
  unfold nick
  by_cases h : n ∈ ns
  · rw [takeOut_some n g hg ns hd h]
    rfl
  · rw [takeOut_none n g hg ns h]
    unfold front
    rw [List.filter_eq_self.mpr]
    · rw [List.map_cons]
      rcases hn with hn | hn
      · exact absurd hn h
      · rw [hn]
    · intro a ha
      rw [decide_eq_true_eq]
      rintro rfl
      exact h ha

theorem nicks_map (g : List Nat → Entry) (hg : ∀ n, (g n).name = n) :
    ∀ (names ns : List (List Nat)), ns.Nodup → names.Nodup →
      (∀ n ∈ names, n ∈ ns ∨ g n = fresh n) →
      names.foldl nick (ns.map g) =
        (names.reverse ++ ns.filter fun m => decide (m ∉ names)).map g := by
  intro names
  induction names with
  | nil =>
    intro ns _ _ _
    show ns.map g = _
    rw [List.filter_eq_self.mpr (by simp)]
    rfl
  | cons n names ih =>
    intro ns hd hnd hk
    rw [List.nodup_cons] at hnd
    rw [List.foldl_cons, nick_map g hg ns hd n (hk n (List.mem_cons_self ..)),
      ih (front ns n) (front_nodup ns n hd) hnd.2]
    · congr 1
      unfold front
      rw [List.filter_cons_of_pos (by simp [hnd.1]), List.reverse_cons, List.append_assoc,
        List.filter_filter]
      congr 2
      apply List.filter_congr
      intro a _
      by_cases h1 : a = n <;> by_cases h2 : a ∈ names <;> simp [h1, h2]
    · intro m hm
      rcases hk m (List.mem_cons_of_mem _ hm) with h | h
      · exact Or.inl ((mem_front ns n m).mpr (Or.inr h))
      · exact Or.inr h

/-- The defaults that the statements of a block make. -/
def madeDefaults (builtin : Mem) (ss : List Setting) : Entry :=
  after ss { name := [], isNull := false, cnf := builtin, cnfi := builtin, mult := [] }

/-- What the parser has after a part of the file. -/
def Built (builtin : Mem) (cfg : List Block) (st : Parsed) : Prop :=
  (∃ ns : List (List Nat), ns.Nodup ∧ (∀ n, n ∈ ns ↔ n ∈ fileNames cfg) ∧
    st.ifs = ns.map fun n => made n (own cfg n)) ∧
  st.dflt = (lastDefaults cfg).map fun ss =>
    ((madeDefaults builtin ss).cnf, (madeDefaults builtin ss).mult)

theorem block_built (builtin : Mem) (cfg : List Block) (b : Block) (st : Parsed)
    (h : Built builtin cfg st) (hb : ∀ names ss, b = .iface names ss → names.Nodup) :
    ∃ st', block builtin st b = some st' ∧ Built builtin (cfg ++ [b]) st' := by
  obtain ⟨⟨ns, hd, hm, hi⟩, hdf⟩ := h
  cases b with
  | defaults ss =>
    have hset := setAll_append ss
      [{ name := [], isNull := false, cnf := builtin, cnfi := builtin, mult := [] }] st.ifs
    refine ⟨{ ifs := st.ifs, dflt := some ((madeDefaults builtin ss).cnf,
      (madeDefaults builtin ss).mult) }, ?_, ⟨ns, hd, ?_, ?_⟩, ?_⟩
    · unfold block
      show (match setAll ss 1 (_ :: st.ifs) with
        | some (e :: es) => some ({ ifs := es, dflt := some (e.cnf, e.mult) } : Parsed)
        | _ => none) = _
      have : setAll ss 1 ({ name := [], isNull := false, cnf := builtin, cnfi := builtin, mult := [] } :: st.ifs)
          = some (madeDefaults builtin ss :: st.ifs) := hset
      rw [this]
    · intro n
      rw [hm, fileNames_append]
      show _ ↔ n ∈ fileNames cfg ++ []
      rw [List.append_nil]
    · show st.ifs = _
      rw [hi]
      apply List.map_congr_left
      intro n _
      rw [own_append]
      show _ = made n (own cfg n ++ [])
      rw [List.append_nil]
    · rw [lastDefaults_append_defaults]
      rfl
  | iface names ss =>
    have hnd := hb names ss rfl
    have hnk := nicks_map (fun n => made n (own cfg n)) (fun n => made_name n _) names ns hd hnd
      (by
        intro n _
        by_cases hn : n ∈ ns
        · exact Or.inl hn
        · right
          rw [own_of_not_named cfg n (fun hh => hn ((hm n).mpr hh))]
          rfl)
    rw [List.map_append] at hnk
    have hset := setAll_append ss (names.reverse.map fun n => made n (own cfg n))
      ((ns.filter fun m => decide (m ∉ names)).map fun n => made n (own cfg n))
    rw [List.length_map, List.length_reverse] at hset
    have hone : ∀ n, own [Block.iface names ss] n = if n ∈ names then ss else [] := by
      intro n
      show (if n ∈ names then ss else []) ++ [] = _
      rw [List.append_nil]
    refine ⟨{ st with ifs := (names.reverse.map fun n => made n (own cfg n)).map (after ss) ++
        (ns.filter fun m => decide (m ∉ names)).map fun n => made n (own cfg n) }, ?_,
      ⟨names.reverse ++ ns.filter fun m => decide (m ∉ names), ?_, ?_, ?_⟩, ?_⟩
    · unfold block
      show (setAll ss names.length (names.foldl nick st.ifs)).map _ = _
      rw [hi, hnk, hset]
      rfl
    · rw [List.nodup_append]
      refine ⟨List.pairwise_reverse.mpr (hnd.imp fun h => h.symm), hd.sublist List.filter_sublist, ?_⟩
      intro a ha c hc hac
      subst hac
      have := (List.mem_filter.mp hc).2
      rw [decide_eq_true_eq] at this
      exact this (List.mem_reverse.mp ha)
    · intro n
      rw [fileNames_append, List.mem_append, List.mem_append, List.mem_reverse, List.mem_filter,
        decide_eq_true_eq, hm]
      show _ ↔ n ∈ fileNames cfg ∨ n ∈ names ++ []
      rw [List.append_nil]
      by_cases h1 : n ∈ names <;> simp [h1]
    · show _ ++ _ = _
      rw [List.map_append, List.map_map]
      congr 1
      · apply List.map_congr_left
        intro n hn
        rw [own_append, hone, if_pos (List.mem_reverse.mp hn)]
        unfold made
        rw [after_append]
        rfl
      · apply List.map_congr_left
        intro n hn
        have := (List.mem_filter.mp hn).2
        rw [decide_eq_true_eq] at this
        rw [own_append, hone, if_neg this, List.append_nil]
    · rw [lastDefaults_append_iface]
      exact hdf

theorem parse_built (builtin : Mem) : ∀ (bs cfg : List Block) (st : Parsed),
    Built builtin cfg st → NoRepeat bs →
    ∃ st', parse builtin st bs = some st' ∧ Built builtin (cfg ++ bs) st' := by
  intro bs
  induction bs with
  | nil => intro cfg st h _; exact ⟨st, rfl, by rw [List.append_nil]; exact h⟩
  | cons b bs ih =>
    intro cfg st h hr
    obtain ⟨st1, h1, hb1⟩ := block_built builtin cfg b st h
      (fun names ss hb => hr names ss (hb ▸ List.mem_cons_self ..))
    obtain ⟨st2, h2, hb2⟩ := ih (cfg ++ [b]) st1 hb1
      (fun names ss hm => hr names ss (List.mem_cons_of_mem _ hm))
    refine ⟨st2, ?_, ?_⟩
    · show (block builtin st b).bind _ = _
      rw [h1]
      exact h2
    · rw [List.append_assoc] at hb2
      exact hb2

/-! ## The command line -/

theorem cli_map (g : List Nat → Entry) (hg : ∀ n, (g n).name = n) : ∀ (cli : List Cli)
    (ns : List (List Nat)), ns.Nodup → (∀ n, n ∉ ns → g n = fresh n) →
    ∃ ns' : List (List Nat), ns'.Nodup ∧ (∀ n, n ∈ ns' ↔ n ∈ ns ∨ n ∈ cliNames cli) ∧
      cli.foldl cliIf (ns.map g) = ns'.map g := by
  intro cli
  induction cli with
  | nil => intro ns hd _; exact ⟨ns, hd, fun n => by simp [cliNames], rfl⟩
  | cons c cli ih =>
    intro ns hd hf
    cases c with
    | opt f v =>
      obtain ⟨ns', h1, h2, h3⟩ := ih ns hd hf
      exact ⟨ns', h1, h2, h3⟩
    | iface n =>
      have hany : ((ns.map g).any fun e => e.name == n) = decide (n ∈ ns) := by
        rw [List.any_map]
        rw [Bool.eq_iff_iff, List.any_eq_true, decide_eq_true_eq]
        constructor
        · rintro ⟨m, hm, he⟩
          have : (g m).name = n := by simpa using he
          rw [hg] at this
          exact this ▸ hm
        · intro hm
          exact ⟨n, hm, by simp [hg]⟩
      by_cases hn : n ∈ ns
      · obtain ⟨ns', h1, h2, h3⟩ := ih ns hd hf
        refine ⟨ns', h1, ?_, ?_⟩
        · intro m
          rw [h2]
          show _ ↔ m ∈ ns ∨ m ∈ n :: cliNames cli
          rw [List.mem_cons]
          constructor
          · rintro (h | h)
            · exact Or.inl h
            · exact Or.inr (Or.inr h)
          · rintro (h | rfl | h)
            · exact Or.inl h
            · exact Or.inl hn
            · exact Or.inr h
        · show cli.foldl cliIf (create (ns.map g) n) = _
          unfold create
          rw [hany, if_pos (by simp [hn])]
          exact h3
      · obtain ⟨ns', h1, h2, h3⟩ := ih (n :: ns) (List.nodup_cons.mpr ⟨hn, hd⟩)
          (fun m hm => hf m (fun hh => hm (List.mem_cons_of_mem _ hh)))
        refine ⟨ns', h1, ?_, ?_⟩
        · intro m
          rw [h2]
          show _ ↔ m ∈ ns ∨ m ∈ n :: cliNames cli
          rw [List.mem_cons, List.mem_cons]
          constructor
          · rintro ((h | h) | h)
            · exact Or.inr (Or.inl h)
            · exact Or.inl h
            · exact Or.inr (Or.inr h)
          · rintro (h | h | h)
            · exact Or.inl (Or.inr h)
            · exact Or.inl (Or.inl h)
            · exact Or.inr h
        · show cli.foldl cliIf (create (ns.map g) n) = _
          unfold create
          rw [hany, if_neg (by simp [hn]), ← hf n hn]
          exact h3

theorem setDefaults_id (m : Mem) (es : List Entry) (h : ∀ e ∈ es, e.isNull = false) :
    setDefaults m es = es := by
  unfold setDefaults
  rw [List.map_congr_left (g := id), List.map_id]
  intro e he
  rw [h e he]
  rfl

/-- Everything up to the check. -/
theorem run_check (v : Env) (cfg : List Block) (cli : List Cli) (hr : NoRepeat cfg) :
    ∃ ns : List (List Nat), ns.Nodup ∧ (∀ n, n ∈ ns ↔ n ∈ fileNames cfg ∨ n ∈ cliNames cli) ∧
      run v cfg cli = check v ((lastDefaults cfg).map fun ss =>
          ((madeDefaults v.builtin ss).cnf, (madeDefaults v.builtin ss).mult))
        (ns.map fun n => made n (own cfg n)) := by
  obtain ⟨st, hp, ⟨ns, hd, hm, hi⟩, hdf⟩ := parse_built v.builtin cfg [] { ifs := [], dflt := none }
    ⟨⟨[], List.nodup_nil, fun n => Iff.rfl, rfl⟩, rfl⟩ hr
  rw [List.nil_append] at hm hi hdf
  obtain ⟨ns', h1, h2, h3⟩ := cli_map (fun n => made n (own cfg n)) (fun n => made_name n _) cli ns
    hd (by
      intro n hn
      show made n (own cfg n) = fresh n
      rw [own_of_not_named cfg n (fun hh => hn ((hm n).mpr hh))]
      rfl)
  refine ⟨ns', h1, ?_, ?_⟩
  · intro n
    rw [h2, hm]
  · unfold run
    rw [hp]
    show check v st.dflt _ = _
    rw [hdf, hi, h3, setDefaults_id]
    intro e he
    obtain ⟨n, _, rfl⟩ := List.mem_map.mp he
    exact made_null n _

/-! ## The check -/

/-- The result of a round. -/
def settled (v : Env) (d : Mem) (dm : List (Nat × Nat)) (e : Entry) : Entry :=
  { e with
    cnf := fixHello v (mergeCnf d e.cnf e.cnfi)
    cnfi := mergeCnfi e.cnf e.cnfi
    mult := e.mult ++ copied e.mult [] dm }

/-- A round succeeds. -/
def Passes (v : Env) (d : Mem) (dm : List (Nat × Nat)) (e : Entry) : Prop :=
  e.name ≠ [] ∧
    bad v (fixHello v (mergeCnf d e.cnf e.cnfi)) (e.mult ++ copied e.mult [] dm) = false

theorem round_pass (v : Env) (d : Mem) (dm : List (Nat × Nat)) (e : Entry)
    (h : Passes v d dm e) : round v d dm e = some (settled v d dm e) := by
  unfold round
  rw [if_neg h.1, h.2]
  rfl

theorem round_fail (v : Env) (d : Mem) (dm : List (Nat × Nat)) (e : Entry)
    (h : ¬ Passes v d dm e) : round v d dm e = none := by
  unfold round
  by_cases hn : e.name = []
  · rw [if_pos hn]
  · rw [if_neg hn, if_pos]
    cases hb : bad v (fixHello v (mergeCnf d e.cnf e.cnfi)) (e.mult ++ copied e.mult [] dm) with
    | true => rfl
    | false => exact absurd ⟨hn, hb⟩ h

theorem rounds_pass (v : Env) (d : Mem) (dm : List (Nat × Nat)) : ∀ es : List Entry,
    (∀ e ∈ es, Passes v d dm e) → rounds v d dm es = some (es.map (settled v d dm)) := by
  intro es
  induction es with
  | nil => intro _; rfl
  | cons e es ih =>
    intro h
    show (round v d dm e).bind _ = _
    rw [round_pass v d dm e (h e (List.mem_cons_self ..)), Option.bind_some,
      ih fun a ha => h a (List.mem_cons_of_mem _ ha)]
    rfl

theorem rounds_fail (v : Env) (d : Mem) (dm : List (Nat × Nat)) : ∀ es : List Entry,
    (∃ e ∈ es, ¬ Passes v d dm e) → rounds v d dm es = none := by
  intro es
  induction es with
  | nil => rintro ⟨e, he, _⟩; cases he
  | cons e es ih =>
    rintro ⟨a, ha, hp⟩
    show (round v d dm e).bind _ = _
    by_cases he : Passes v d dm e
    · rw [round_pass v d dm e he, Option.bind_some, ih]
      · rfl
      · rcases List.mem_cons.mp ha with rfl | ha
        · exact absurd he hp
        · exact ⟨a, ha, hp⟩
    · rw [round_fail v d dm e he]
      rfl

theorem check_cases (v : Env) (o : Option (Mem × List (Nat × Nat))) (es : List Entry) :
    ((∀ e ∈ es, Passes v (defaults v o).1 (defaults v o).2 e) ∧
      check v o es = .ok (es.map (settled v (defaults v o).1 (defaults v o).2))) ∨
    ((∃ e ∈ es, ¬ Passes v (defaults v o).1 (defaults v o).2 e) ∧ check v o es = .rejected) := by
  by_cases h : ∃ e ∈ es, ¬ Passes v (defaults v o).1 (defaults v o).2 e
  · right
    refine ⟨h, ?_⟩
    unfold check
    rw [rounds_fail _ _ _ _ h]
  · left
    have h' : ∀ e ∈ es, Passes v (defaults v o).1 (defaults v o).2 e := by
      intro e he
      exact Classical.byContradiction fun hh => h ⟨e, he, hh⟩
    refine ⟨h', ?_⟩
    unfold check
    rw [rounds_pass _ _ _ _ h']

/-! ## Values -/

theorem copied_mem (orig : List (Nat × Nat)) : ∀ (l acc : List (Nat × Nat)),
    copied orig acc l =
      (l.filter fun p => decide (p.1 ∉ orig.map Prod.fst)).reverse ++ acc := by
  intro l
  induction l with
  | nil => intro acc; rfl
  | cons p l ih =>
    intro acc
    have hany : (orig.any fun q => q.1 == p.1) = decide (p.1 ∈ orig.map Prod.fst) := by
      rw [Bool.eq_iff_iff, List.any_eq_true, decide_eq_true_eq, List.mem_map]
      simp
    unfold copied
    rw [hany]
    by_cases h : p.1 ∈ orig.map Prod.fst
    · rw [if_pos (by simp [h] : decide (p.1 ∈ orig.map Prod.fst) = true), ih,
        List.filter_cons_of_neg (by simp only [h]; decide)]
    · rw [if_neg (by simp only [h]; decide), ih,
        List.filter_cons_of_pos (by simp only [h]; decide), List.reverse_cons, List.append_assoc]
      rfl

end Verif.Conf
