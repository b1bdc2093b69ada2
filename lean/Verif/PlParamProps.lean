import Verif.PlParamLemmas

/-!
# C133: plugin parameters
-/

namespace Verif.PlParam

/-! ## Numbers -/

private theorem value_pos (n : Numeral) (h : decide (n.sgn = some true) = false) : n.value = n.mag := by
  unfold Numeral.value
  rw [if_neg (by simpa using h)]

private theorem value_neg (n : Numeral) (h : decide (n.sgn = some true) = true) :
    n.value = -(n.mag : Int) := by
  unfold Numeral.value
  rw [if_pos (by simpa using h)]

/-- C133, partial. A port is set to the number that the text stands for, in every notation, or refused if
it is not between 0 and 65535. Missing: numbers that differ from a port by a multiple of 2^32, see
`C133_port_negation`. -/
theorem C133_port_partial (n : Numeral) (h : n.Ok) (h1 : -(4294967296 - 65536) ≤ n.value)
    (h2 : n.value < 4294967296) :
    setPort n.text = if 0 ≤ n.value ∧ n.value ≤ 65535 then some (.num n.value) else none := by
  unfold setPort
  rw [number_text n h]
  simp only []
  cases hs : decide (n.sgn = some true) with
  | false =>
    rw [value_pos n hs] at *
    have hu : toUL false n.mag % 2 ^ 32 = n.mag := by
      unfold toUL
      rw [if_neg (by omega), if_neg (by decide)]
      omega
    rw [hu]
    by_cases hp : n.mag > 65535
    · rw [if_pos hp, if_neg (by omega)]
    · rw [if_neg hp, if_pos (by omega)]
  | true =>
    rw [value_neg n hs] at *
    by_cases h0 : n.mag = 0
    · rw [h0]
      decide
    · have hu : toUL true n.mag % 2 ^ 32 > 65535 := by
        unfold toUL
        rw [if_neg (by omega), if_pos rfl]
        omega
      rw [if_pos hu, if_neg (by omega)]

/-- C133, partial. An integer is set to the number that the text stands for, in every notation. Missing:
numbers that do not fit, see `C133_int_negation`. -/
theorem C133_int_partial (n : Numeral) (h : n.Ok) (h1 : -2147483648 ≤ n.value)
    (h2 : n.value < 2147483648) : setInt n.text = some (.num n.value) := by
  unfold setInt
  rw [number_text n h]
  simp only []
  cases hs : decide (n.sgn = some true) with
  | false =>
    rw [value_pos n hs] at *
    unfold toL toInt
    rw [if_neg (by decide), if_neg (by omega)]
    apply congrArg (fun z => some (Val.num z))
    omega
  | true =>
    rw [value_neg n hs] at *
    unfold toL toInt
    rw [if_pos rfl, if_neg (by omega)]
    apply congrArg (fun z => some (Val.num z))
    omega

/-- C133, partial. The same for a long integer; see `C133_long_negation`. -/
theorem C133_long_partial (n : Numeral) (h : n.Ok) (h1 : -9223372036854775808 ≤ n.value)
    (h2 : n.value < 9223372036854775808) : setLong n.text = some (.num n.value) := by
  unfold setLong
  rw [number_text n h]
  simp only []
  cases hs : decide (n.sgn = some true) with
  | false =>
    rw [value_pos n hs] at *
    unfold toL
    rw [if_neg (by decide), if_neg (by omega)]
  | true =>
    rw [value_neg n hs] at *
    unfold toL
    rw [if_pos rfl, if_neg (by omega)]

/-- C133. A text that is not a numeral is refused for all three. -/
theorem C133_refused (l : List Nat) (h : ∀ n : Numeral, n.Ok → n.text ≠ l) :
    setPort l = none ∧ setInt l = none ∧ setLong l = none := by
  have hn : number l = none := by
    cases hc : number l with
    | none => rfl
    | some v =>
      obtain ⟨n, hn, ht⟩ := number_only l v.1 v.2 hc
      exact (h n hn ht).elim
  unfold setPort setInt setLong
  rw [hn]
  exact ⟨rfl, rfl, rfl⟩

/-- `4294967376`, that is 2^32 + 80. -/
private def bigPort : Numeral :=
  { ws := [], sgn := none, form := .dec
    digs := [(4, false), (2, false), (9, false), (4, false), (9, false), (6, false), (7, false), (3, false),
      (7, false), (6, false)] }

private theorem ok_dec (ds : List (Nat × Bool)) (d : Nat × Bool) (sg : Option Bool) (h0 : d.1 ≠ 0)
    (h : ∀ x ∈ d :: ds, x.1 < 10) : Numeral.Ok { ws := [], sgn := sg, form := .dec, digs := d :: ds } :=
  ⟨(by intro c h; cases h), h, fun _ => ⟨d, ds, rfl, h0⟩, (by intro u h; cases h)⟩

/-- C133, negation. 4294967376 is accepted as port 80. -/
theorem C133_port_negation : ∃ n : Numeral, n.Ok ∧ n.value = 4294967376 ∧
    setPort n.text = some (.num 80) :=
  ⟨bigPort, ok_dec _ _ _ (by decide) (by decide), by decide, by decide⟩

/-- C133, negation. The integer 4294967376 is accepted as 80. -/
theorem C133_int_negation : ∃ n : Numeral, n.Ok ∧ n.value = 4294967376 ∧ setInt n.text = some (.num 80) :=
  ⟨bigPort, ok_dec _ _ _ (by decide) (by decide), by decide, by decide⟩

/-- `99999999999999999999`. -/
private def bigLong : Numeral :=
  { ws := [], sgn := none, form := .dec, digs := (9, false) :: List.replicate 19 (9, false) }

/-- C133, negation. A long integer that is too large is accepted as the largest one. -/
theorem C133_long_negation : ∃ n : Numeral, n.Ok ∧ n.value = 99999999999999999999 ∧
    setLong n.text = some (.num 9223372036854775807) :=
  ⟨bigLong, ok_dec _ _ _ (by decide) (by decide), by decide, by decide⟩

/-! ## Flags and strings -/

/-- Letters in one case. -/
def fold (l : List Nat) : List Nat := l.map fun c => if 64 < c ∧ c < 91 then c + 32 else c

private theorem fold_eq (l : List Nat) : l.map lower = fold l := by
  unfold fold
  apply List.map_congr_left
  intro c _
  unfold lower
  by_cases h : 65 ≤ c ∧ c ≤ 90
  · rw [if_pos h, if_pos (by omega)]
  · rw [if_neg h, if_neg (by omega)]

private theorem fold_fold (l : List Nat) : fold (fold l) = fold l := by
  unfold fold
  rw [List.map_map]
  apply List.map_congr_left
  intro c _
  simp only [Function.comp]
  by_cases h : 64 < c ∧ c < 91
  · rw [if_pos h, if_neg (by omega)]
  · rw [if_neg h, if_neg h]

private theorem ciEq_iff (a b : List Nat) : ciEq a b = true ↔ fold a = fold b := by
  unfold ciEq
  rw [beq_iff_eq, fold_eq, fold_eq]

/-- C133. A flag is set by yes, true, no and false in any case, and by nothing else. -/
theorem C133_flag (l : List Nat) :
    (setBool l = some (.flag true) ↔
      fold l = "yes".toList.map Char.toNat ∨ fold l = "true".toList.map Char.toNat) ∧
    (setBool l = some (.flag false) ↔
      fold l = "no".toList.map Char.toNat ∨ fold l = "false".toList.map Char.toNat) ∧
    (setBool l = some (.flag true) ∨ setBool l = some (.flag false) ∨ setBool l = none) := by
  have e1 : fold [121, 101, 115] = "yes".toList.map Char.toNat := by decide
  have e2 : fold [116, 114, 117, 101] = "true".toList.map Char.toNat := by decide
  have e3 : fold [110, 111] = "no".toList.map Char.toNat := by decide
  have e4 : fold [102, 97, 108, 115, 101] = "false".toList.map Char.toNat := by decide
  have d1 : "yes".toList.map Char.toNat ≠ "no".toList.map Char.toNat := by decide
  have d2 : "yes".toList.map Char.toNat ≠ "false".toList.map Char.toNat := by decide
  have d3 : "true".toList.map Char.toNat ≠ "no".toList.map Char.toNat := by decide
  have d4 : "true".toList.map Char.toNat ≠ "false".toList.map Char.toNat := by decide
  unfold setBool
  simp only [Bool.or_eq_true, ciEq_iff, e1, e2, e3, e4]
  by_cases h1 : fold l = "yes".toList.map Char.toNat ∨ fold l = "true".toList.map Char.toNat
  · rw [if_pos h1]
    refine ⟨⟨fun _ => h1, fun _ => rfl⟩, ⟨fun h => (by cases h), fun h => ?_⟩, Or.inl rfl⟩
    exfalso
    rcases h1 with h1 | h1 <;> rcases h with h | h <;> rw [h1] at h
    · exact d1 h
    · exact d2 h
    · exact d3 h
    · exact d4 h
  · rw [if_neg h1]
    by_cases h2 : fold l = "no".toList.map Char.toNat ∨ fold l = "false".toList.map Char.toNat
    · rw [if_pos h2]
      exact ⟨⟨fun h => (by cases h), fun h => (h1 h).elim⟩, ⟨fun _ => h2, fun _ => rfl⟩, Or.inr (Or.inl rfl)⟩
    · rw [if_neg h2]
      exact ⟨⟨fun h => (by cases h), fun h => (h1 h).elim⟩, ⟨fun h => (by cases h), fun h => (h2 h).elim⟩,
        Or.inr (Or.inr rfl)⟩

/-- C133. A string is stored as it is if it fits with its terminating zero, and refused otherwise. -/
theorem C133_string (cap : Nat) (l : List Nat) (h : l.length < 4294967296) :
    setString cap l = if l.length + 1 ≤ cap then some (.text l) else none := by
  unfold setString
  rw [Nat.mod_eq_of_lt (by omega)]
  by_cases hc : l.length ≥ cap
  · rw [if_pos hc, if_neg (by omega)]
  · rw [if_neg hc, if_pos (by omega)]

/-! ## From the file to the variables -/

/-- The statements for a plugin in the order of the file, over all its blocks. -/
def stmts (file : List Block) (n : List Nat) : List Param :=
  file.flatMap fun b => if b.name = n then b.body else []

/-- The different names of a list, each at its first place. -/
def recent : List (List Nat) → List (List Nat)
  | [] => []
  | n :: r => n :: (recent r).filter fun m => decide (m ≠ n)

private def low (p : Param) : Param := { p with key := p.key.map lower }

private theorem addParams (q : Plugin) (r : List Plugin) : ∀ ps : List Param,
    ps.foldl addParam (q :: r) = { q with params := (ps.map low).reverse ++ q.params } :: r := by
  intro ps
  induction ps generalizing q with
  | nil => rfl
  | cons p ps ih =>
    rw [List.foldl_cons, show addParam (q :: r) p = { q with params := low p :: q.params } :: r from rfl,
      ih, List.map_cons, List.reverse_cons, List.append_assoc]
    rfl

private structure Good (file : List Block) (l : List Plugin) : Prop where
  names : l.map Plugin.name = recent (file.map Block.name).reverse
  params : ∀ p ∈ l, p.params = ((stmts file p.name).map low).reverse

private theorem recent_nodup : ∀ l, (recent l).Nodup := by
  intro l
  induction l with
  | nil => exact List.nodup_nil
  | cons n r ih =>
    unfold recent
    refine List.nodup_cons.mpr ⟨?_, ih.filter _⟩
    intro h
    have := (List.mem_filter.mp h).2
    simp at this

private theorem mem_recent (n : List Nat) : ∀ l, n ∈ recent l ↔ n ∈ l := by
  intro l
  induction l with
  | nil => exact Iff.rfl
  | cons m r ih =>
    unfold recent
    by_cases h : n = m
    · simp [h]
    · simp [h, ih]

private theorem erase_names (n : List Nat) : ∀ l : List Plugin, (l.map Plugin.name).Nodup →
    (l.eraseP fun p => p.name == n) = l.filter fun p => decide (p.name ≠ n) := by
  intro l
  induction l with
  | nil => intro _; rfl
  | cons p l ih =>
    intro h
    rw [List.map_cons, List.nodup_cons] at h
    by_cases hp : p.name = n
    · rw [List.eraseP_cons_of_pos (by simp [hp]), List.filter_cons_of_neg (by simp [hp])]
      symm
      rw [List.filter_eq_self]
      intro q hq
      have : q.name ≠ n := by
        intro hq'
        exact h.1 (by rw [hp, ← hq']; exact List.mem_map_of_mem hq)
      simp [this]
    · rw [List.eraseP_cons_of_neg (by simp [hp]), List.filter_cons_of_pos (by simp [hp]), ih h.2]

private theorem good_block (file : List Block) (l : List Plugin) (b : Block) (h : Good file l) :
    Good (file ++ [b]) (block l b) := by
  have hnd : (l.map Plugin.name).Nodup := by rw [h.names]; exact recent_nodup _
  have hst : ∀ n, stmts (file ++ [b]) n = stmts file n ++ if b.name = n then b.body else [] := by
    intro n
    unfold stmts
    rw [List.flatMap_append]
    simp
  obtain ⟨q, hq, hqn, hqp⟩ : ∃ q, openBlock b.name l =
      q :: (l.filter fun p => decide (p.name ≠ b.name)) ∧ q.name = b.name ∧
      q.params = ((stmts file b.name).map low).reverse := by
    unfold openBlock
    cases hf : l.find? fun p => p.name == b.name with
    | some p =>
      have hm := List.mem_of_find?_eq_some hf
      have hn : p.name = b.name := by simpa using List.find?_some hf
      refine ⟨p, ?_, hn, ?_⟩
      · simp only []
        rw [erase_names _ _ hnd]
      · rw [h.params p hm, hn]
    | none =>
      have hno : ∀ p ∈ l, p.name ≠ b.name := by
        intro p hp
        have := List.find?_eq_none.mp hf p hp
        simpa using this
      refine ⟨{ name := b.name, params := [] }, ?_, rfl, ?_⟩
      · simp only []
        rw [List.filter_eq_self.mpr (by intro p hp; simp [hno p hp])]
      · have : stmts file b.name = [] := by
          unfold stmts
          rw [List.flatMap_eq_nil_iff]
          intro c hc
          rw [if_neg]
          intro hcn
          have : c.name ∈ l.map Plugin.name := by
            rw [h.names, mem_recent, List.mem_reverse]
            exact List.mem_map_of_mem hc
          obtain ⟨p, hp, hpn⟩ := List.mem_map.mp this
          exact hno p hp (by rw [hpn, hcn])
        rw [this]
        rfl
  have hb : block l b = { q with params := (b.body.map low).reverse ++ q.params } ::
      l.filter fun p => decide (p.name ≠ b.name) := by
    unfold block
    rw [hq, addParams]
  refine ⟨?_, ?_⟩
  · rw [hb, List.map_append, List.reverse_append, List.map_cons]
    show q.name :: _ = recent (b.name :: (file.map Block.name).reverse)
    unfold recent
    rw [hqn, ← h.names]
    congr 1
    rw [List.filter_map]
    rfl
  · intro p hp
    rw [hb] at hp
    rcases List.mem_cons.mp hp with rfl | hp
    · simp only []
      rw [hst, hqn, if_pos rfl, hqp, List.map_append, List.reverse_append]
    · have := List.mem_filter.mp hp
      have hne : p.name ≠ b.name := by simpa using this.2
      rw [hst, if_neg (fun h => hne h.symm), List.append_nil]
      exact h.params p this.1

private theorem good_foldl : ∀ (rest file : List Block) (l : List Plugin), Good file l →
    Good (file ++ rest) (rest.foldl block l) := by
  intro rest
  induction rest with
  | nil => intro file l h; rw [List.append_nil]; exact h
  | cons b rest ih =>
    intro file l h
    rw [List.foldl_cons, List.append_cons]
    exact ih _ _ (good_block file l b h)

private theorem good_parse (file : List Block) : Good file (parse file) := by
  have h0 : Good [] [] := ⟨rfl, by intro p h; cases h⟩
  exact good_foldl file [] [] h0

/-- C133. Every plugin that the file names is loaded once; the one that is named last is loaded first. -/
theorem C133_order (file : List Block) :
    loadOrder (parse file) = recent (file.map Block.name).reverse ∧ (loadOrder (parse file)).Nodup ∧
    ∀ n, n ∈ loadOrder (parse file) ↔ ∃ b ∈ file, b.name = n := by
  have h := (good_parse file).names
  unfold loadOrder
  refine ⟨h, by rw [h]; exact recent_nodup _, fun n => ?_⟩
  rw [h, mem_recent, List.mem_reverse, List.mem_map]

private theorem pairwise_mem {R : Entry → Entry → Prop} (hs : ∀ {a b}, R a b → R b a) {l : List Entry}
    (h : l.Pairwise R) {a b : Entry} (ha : a ∈ l) (hb : b ∈ l) (hne : a ≠ b) : R a b := by
  induction l with
  | nil => cases ha
  | cons x l ih =>
    rw [List.pairwise_cons] at h
    rcases List.mem_cons.mp ha with hy | ha
    · rcases List.mem_cons.mp hb with hx | hb
      · exact (hne (by rw [hx, hy])).elim
      · rw [hy]
        exact h.1 b hb
    · rcases List.mem_cons.mp hb with hx | hb
      · rw [hx]
        exact hs (h.1 a ha)
      · exact ih h.2 ha hb

/-- One statement, as a function of the state after those that follow it in the file. -/
private theorem send_low (table : List Entry) (p : Param) (s : PSt)
    (hd : table.Pairwise fun a b => fold a.name ≠ fold b.name)
    (hv : table.Pairwise fun a b => a.var ≠ b.var) :
    (∀ e ∈ table, fold p.key = fold e.name → (∃ v, setter e.kind p.value = some v ∧
        (send table s (low p)).vars e.var = v ∧ (send table s (low p)).ok = s.ok) ∨
        (setter e.kind p.value = none ∧ (send table s (low p)).ok = false)) ∧
    (∀ e ∈ table, fold p.key ≠ fold e.name → (send table s (low p)).vars e.var = s.vars e.var) ∧
    (table ≠ [] → (∀ e ∈ table, fold p.key ≠ fold e.name) → (send table s (low p)).ok = s.ok) := by
  have hci : ∀ e : Entry, ciEq e.name (low p).key = true ↔ fold p.key = fold e.name := by
    intro e
    rw [ciEq_iff]
    show fold e.name = fold (p.key.map lower) ↔ _
    rw [fold_eq, fold_fold]
    exact ⟨fun h => h.symm, fun h => h.symm⟩
  have hval : (low p).value = p.value := rfl
  cases ht : table with
  | nil =>
    exact ⟨(by intro e h; cases h), (by intro e h; cases h), fun h => (h rfl).elim⟩
  | cons e0 t0 =>
    rw [← ht]
    have htne : table ≠ [] := by rw [ht]; simp
    have huniq : ∀ a ∈ table, ∀ b ∈ table, fold a.name = fold b.name → a = b := by
      intro a ha b hb hab
      by_cases hne : a = b
      · exact hne
      · exfalso
        exact pairwise_mem (fun h h2 => h h2.symm) hd ha hb hne hab
    have hvar : ∀ a ∈ table, ∀ b ∈ table, a ≠ b → a.var ≠ b.var := by
      intro a ha b hb hne
      exact pairwise_mem (R := fun a b => a.var ≠ b.var) (fun h h2 => h h2.symm) hv ha hb hne
    unfold send
    rw [if_neg htne, hval]
    cases hf : table.find? fun e => ciEq e.name (low p).key with
    | none =>
      have hno : ∀ e ∈ table, fold p.key ≠ fold e.name := by
        intro e he h
        have := List.find?_eq_none.mp hf e he
        exact this ((hci e).mpr h)
      exact ⟨fun e he h => (hno e he h).elim, fun _ _ _ => rfl, fun _ _ => rfl⟩
    | some e1 =>
      have hm := List.mem_of_find?_eq_some hf
      have hk := (hci e1).mp (List.find?_some (p := fun e : Entry => ciEq e.name (low p).key) hf)
      simp only []
      cases hs : setter e1.kind p.value with
      | none =>
        refine ⟨fun e he h => Or.inr ⟨?_, rfl⟩, fun _ _ _ => rfl, fun _ hno => (hno e1 hm hk).elim⟩
        have : e = e1 := huniq e he e1 hm (by rw [← h, hk])
        rw [this, hs]
      | some v =>
        refine ⟨fun e he h => Or.inl ⟨v, ?_, ?_, rfl⟩, fun e he hne => ?_, fun _ hno => (hno e1 hm hk).elim⟩
        · have : e = e1 := huniq e he e1 hm (by rw [← h, hk])
          rw [this, hs]
        · have : e = e1 := huniq e he e1 hm (by rw [← h, hk])
          simp only []
          rw [this, if_pos rfl]
        · simp only []
          have : e ≠ e1 := by
            intro h
            rw [h] at hne
            exact hne hk
          rw [if_neg (hvar e he e1 hm this)]

/-- The statements in the order of the file, the effect of the first one last. -/
private def after (table : List Entry) (vars : Nat → Val) : List Param → PSt
  | [] => { vars := vars, ok := true }
  | p :: ps => send table (after table vars ps) (low p)

private theorem sendAll_eq (table : List Entry) (vars : Nat → Val) (ps : List Param) :
    sendAll table vars (ps.map low).reverse = after table vars ps := by
  unfold sendAll
  induction ps with
  | nil => rfl
  | cons p ps ih =>
    rw [List.map_cons, List.reverse_cons, List.foldl_append, ih]
    rfl

/-- What a statement must fulfil for the daemon to start. -/
def Legal (table : List Entry) (p : Param) : Prop :=
  table ≠ [] ∧ ∀ e ∈ table, fold p.key = fold e.name → ∃ v, setter e.kind p.value = some v

private theorem send_ok_mono (table : List Entry) (s : PSt) (p : Param)
    (h : (send table s p).ok = true) : s.ok = true := by
  unfold send at h
  split at h
  · cases h
  · split at h
    · exact h
    · split at h
      · cases h
      · exact h

private theorem after_ok (table : List Entry) (vars : Nat → Val)
    (hd : table.Pairwise fun a b => fold a.name ≠ fold b.name)
    (hv : table.Pairwise fun a b => a.var ≠ b.var) : ∀ ps : List Param,
    (after table vars ps).ok = true ↔ ∀ p ∈ ps, Legal table p := by
  intro ps
  induction ps with
  | nil =>
    constructor
    · intro _ p hp
      cases hp
    · intro _
      rfl
  | cons p ps ih =>
    obtain ⟨h1, -, h3⟩ := send_low table p (after table vars ps) hd hv
    constructor
    · intro h q hq
      have hs := send_ok_mono _ _ _ h
      have htne : table ≠ [] := by
        intro ht
        unfold after send at h
        rw [if_pos ht] at h
        cases h
      rcases List.mem_cons.mp hq with rfl | hq
      · refine ⟨htne, fun e he hk => ?_⟩
        rcases h1 e he hk with ⟨v, hv, -, -⟩ | ⟨-, hf⟩
        · exact ⟨v, hv⟩
        · rw [show after table vars (q :: ps) = send table (after table vars ps) (low q) from rfl, hf] at h
          cases h
      · exact ih.mp hs q hq
    · intro h
      have hps := ih.mpr fun q hq => h q (List.mem_cons_of_mem _ hq)
      obtain ⟨htne, hl⟩ := h p List.mem_cons_self
      show (send table (after table vars ps) (low p)).ok = true
      by_cases hex : ∃ e ∈ table, fold p.key = fold e.name
      · obtain ⟨e, he, hk⟩ := hex
        rcases h1 e he hk with ⟨v, -, -, hok⟩ | ⟨hn, -⟩
        · rw [hok, hps]
        · obtain ⟨v, hv⟩ := hl e he hk
          rw [hn] at hv
          cases hv
      · rw [h3 htne (fun e he hk => hex ⟨e, he, hk⟩), hps]

/-- C133. For every file and every plugin in it with a table of different names: the parameters are
accepted exactly if all of its statements are legal. -/
theorem C133_accepted (file : List Block) (pl : Plugin) (hpl : pl ∈ parse file) (table : List Entry)
    (vars : Nat → Val) (hd : table.Pairwise fun a b => fold a.name ≠ fold b.name)
    (hv : table.Pairwise fun a b => a.var ≠ b.var) :
    (sendAll table vars pl.params).ok = true ↔ ∀ p ∈ stmts file pl.name, Legal table p := by
  rw [(good_parse file).params pl hpl, sendAll_eq]
  exact after_ok table vars hd hv _

private theorem after_vars (table : List Entry) (vars : Nat → Val)
    (hd : table.Pairwise fun a b => fold a.name ≠ fold b.name)
    (hv : table.Pairwise fun a b => a.var ≠ b.var) (e : Entry) (he : e ∈ table) : ∀ ps : List Param,
    (after table vars ps).ok = true →
    ((∀ p ∈ ps, fold p.key ≠ fold e.name) → (after table vars ps).vars e.var = vars e.var) ∧
    (∀ pre p post, ps = pre ++ p :: post → fold p.key = fold e.name →
      (∀ q ∈ pre, fold q.key ≠ fold e.name) →
      setter e.kind p.value = some ((after table vars ps).vars e.var)) := by
  intro ps
  induction ps with
  | nil =>
    intro _
    refine ⟨fun _ => rfl, ?_⟩
    intro pre p post h
    cases pre <;> cases h
  | cons a ps ih =>
    intro hok
    have hs := send_ok_mono _ _ _ (show (send table (after table vars ps) (low a)).ok = true from hok)
    obtain ⟨i1, i2⟩ := ih hs
    obtain ⟨h1, h2, -⟩ := send_low table a (after table vars ps) hd hv
    have hstep : after table vars (a :: ps) = send table (after table vars ps) (low a) := rfl
    refine ⟨fun hno => ?_, fun pre p post heq hk hpre => ?_⟩
    · rw [hstep, h2 e he (hno a List.mem_cons_self)]
      exact i1 fun p hp => hno p (List.mem_cons_of_mem _ hp)
    · cases pre with
      | nil =>
        injection heq with ha hps
        subst ha
        rcases h1 e he hk with ⟨v, hv, hvar, -⟩ | ⟨-, hf⟩
        · rw [hstep, hvar, hv]
        · rw [hstep, hf] at hok
          cases hok
      | cons b pre =>
        injection heq with ha hps
        subst ha
        rw [hstep, h2 e he (hpre a List.mem_cons_self)]
        exact i2 pre p post hps hk fun q hq => hpre q (List.mem_cons_of_mem _ hq)

/-- C133. If the parameters are accepted, every variable has the value of the first statement of the file
for it, over all blocks of the plugin, and the value it had if there is none. -/
theorem C133_first (file : List Block) (pl : Plugin) (hpl : pl ∈ parse file) (table : List Entry)
    (vars : Nat → Val) (hd : table.Pairwise fun a b => fold a.name ≠ fold b.name)
    (hv : table.Pairwise fun a b => a.var ≠ b.var) (hok : (sendAll table vars pl.params).ok = true)
    (e : Entry) (he : e ∈ table) :
    ((∀ p ∈ stmts file pl.name, fold p.key ≠ fold e.name) →
      (sendAll table vars pl.params).vars e.var = vars e.var) ∧
    (∀ pre p post, stmts file pl.name = pre ++ p :: post → fold p.key = fold e.name →
      (∀ q ∈ pre, fold q.key ≠ fold e.name) →
      setter e.kind p.value = some ((sendAll table vars pl.params).vars e.var)) := by
  rw [(good_parse file).params pl hpl, sendAll_eq] at hok ⊢
  exact after_vars table vars hd hv e he _ hok

/-! ## The generated configuration -/

private theorem stmts_generate (l : List Plugin) (hnd : (l.map Plugin.name).Nodup) (p : Plugin)
    (hp : p ∈ l) : stmts (generate l) p.name = p.params := by
  unfold stmts generate
  induction l with
  | nil => cases hp
  | cons q l ih =>
    rw [List.map_cons, List.nodup_cons] at hnd
    rw [List.map_cons, List.flatMap_cons]
    rcases List.mem_cons.mp hp with rfl | hp
    · rw [if_pos rfl]
      have : (l.map fun p => ({ name := p.name, body := p.params } : Block)).flatMap
          (fun b => if b.name = p.name then b.body else []) = [] := by
        rw [List.flatMap_eq_nil_iff]
        intro b hb
        obtain ⟨r, hr, rfl⟩ := List.mem_map.mp hb
        rw [if_neg]
        intro h
        exact hnd.1 (h ▸ List.mem_map_of_mem hr)
      rw [this, List.append_nil]
    · rw [if_neg (fun h => hnd.1 (by simp only [] at h; rw [h]; exact List.mem_map_of_mem hp)),
        List.nil_append]
      exact ih hnd.2 hp

private theorem recent_of_nodup : ∀ l : List (List Nat), l.Nodup → recent l = l := by
  intro l
  induction l with
  | nil => intro _; rfl
  | cons n r ih =>
    intro h
    rw [List.nodup_cons] at h
    unfold recent
    rw [ih h.2, List.filter_eq_self.mpr]
    intro m hm
    have : m ≠ n := by
      intro hmn
      exact h.1 (hmn ▸ hm)
    simp [this]

/-- C133. Saving the configuration and loading it again turns the order of the plugins round. -/
theorem C133_generated_order (file : List Block) :
    loadOrder (parse (generate (parse file))) = (loadOrder (parse file)).reverse := by
  rw [(C133_order _).1]
  have : (generate (parse file)).map Block.name = loadOrder (parse file) := by
    unfold generate loadOrder
    rw [List.map_map]
    rfl
  rw [this, recent_of_nodup _ (List.pairwise_reverse.mpr ((C133_order file).2.1.imp fun h => h.symm))]

/-- C133, partial. After saving the configuration and loading it again, a plugin gets the same values.
Missing: several statements with one key, see `C133_generated_negation`. -/
theorem C133_generated_partial (file : List Block) (pl pl' : Plugin) (hpl : pl ∈ parse file)
    (hpl' : pl' ∈ parse (generate (parse file))) (hn : pl'.name = pl.name) (table : List Entry)
    (vars : Nat → Val) (hd : table.Pairwise fun a b => fold a.name ≠ fold b.name)
    (hv : table.Pairwise fun a b => a.var ≠ b.var)
    (hk : (stmts file pl.name).Pairwise fun p q => fold p.key ≠ fold q.key) :
    (sendAll table vars pl'.params).ok = (sendAll table vars pl.params).ok ∧
    ((sendAll table vars pl.params).ok = true → ∀ e ∈ table,
      (sendAll table vars pl'.params).vars e.var = (sendAll table vars pl.params).vars e.var) := by
  have hnd := (C133_order file).2.1
  have hst : stmts (generate (parse file)) pl'.name = ((stmts file pl.name).map low).reverse := by
    rw [hn, stmts_generate _ hnd pl hpl, (good_parse file).params pl hpl]
  have hfold : ∀ p : Param, fold (low p).key = fold p.key := by
    intro p
    show fold (p.key.map lower) = _
    rw [fold_eq, fold_fold]
  have hlegal : ∀ p, Legal table (low p) ↔ Legal table p := by
    intro p
    unfold Legal
    rw [hfold]
    exact Iff.rfl
  have hoks : (sendAll table vars pl'.params).ok = true ↔ (sendAll table vars pl.params).ok = true := by
    rw [C133_accepted _ _ hpl' table vars hd hv, C133_accepted _ _ hpl table vars hd hv, hst]
    constructor
    · intro h p hp
      exact (hlegal p).mp (h (low p) (List.mem_reverse.mpr (List.mem_map_of_mem hp)))
    · intro h p hp
      obtain ⟨q, hq, rfl⟩ := List.mem_map.mp (List.mem_reverse.mp hp)
      exact (hlegal q).mpr (h q hq)
  refine ⟨Bool.eq_iff_iff.mpr hoks, fun hok e he => ?_⟩
  obtain ⟨a1, a2⟩ := C133_first file pl hpl table vars hd hv hok e he
  obtain ⟨b1, b2⟩ := C133_first _ pl' hpl' table vars hd hv (hoks.mpr hok) e he
  rw [hst] at b1 b2
  by_cases hex : ∃ p ∈ stmts file pl.name, fold p.key = fold e.name
  · obtain ⟨p, hp, hpk⟩ := hex
    obtain ⟨pre, post, hsplit⟩ := List.append_of_mem hp
    rw [hsplit] at hk
    rw [List.pairwise_append, List.pairwise_cons] at hk
    have hpre : ∀ q ∈ pre, fold q.key ≠ fold e.name := by
      intro q hq h
      exact hk.2.2 q hq p List.mem_cons_self (by rw [h, hpk])
    have hpost : ∀ q ∈ post, fold q.key ≠ fold e.name := by
      intro q hq h
      exact hk.2.1.1 q hq (by rw [h, hpk])
    have h1 := a2 pre p post hsplit hpk hpre
    have h2 := b2 (post.map low).reverse (low p) (pre.map low).reverse
      (by rw [hsplit, List.map_append, List.map_cons, List.reverse_append, List.reverse_cons,
            List.append_assoc]; rfl) (by rw [hfold, hpk])
      (by
        intro q hq
        obtain ⟨r, hr, rfl⟩ := List.mem_map.mp (List.mem_reverse.mp hq)
        rw [hfold]
        exact hpost r hr)
    rw [show (low p).value = p.value from rfl, h1] at h2
    exact (Option.some.inj h2).symm
  · rw [a1 (fun p hp h => hex ⟨p, hp, h⟩), b1]
    intro p hp h
    obtain ⟨q, hq, rfl⟩ := List.mem_map.mp (List.mem_reverse.mp hp)
    rw [hfold] at h
    exact hex ⟨q, hq, h⟩

/-! ### Two statements with one key -/

private def portTable : List Entry := [{ name := [112, 111, 114, 116], kind := .port, var := 0 }]

/-- `PlParam "port" "80"` and `PlParam "Port" "81"`. -/
private def twice : List Block :=
  [{ name := [108], body := [⟨[112, 111, 114, 116], [56, 48]⟩, ⟨[80, 111, 114, 116], [56, 49]⟩] }]

/-- C133, negation. Of two statements with one key the first counts, not the last as with all other
settings; and it is the other way round after the configuration has been saved and loaded again. -/
theorem C133_generated_negation : ∃ (file : List Block) (pl pl' : Plugin) (table : List Entry)
    (vars : Nat → Val), parse file = [pl] ∧ parse (generate (parse file)) = [pl'] ∧
    (sendAll table vars pl.params).ok = true ∧ (sendAll table vars pl'.params).ok = true ∧
    (sendAll table vars pl.params).vars 0 = .num 80 ∧ (sendAll table vars pl'.params).vars 0 = .num 81 :=
  ⟨twice, { name := [108], params := [⟨[112, 111, 114, 116], [56, 49]⟩, ⟨[112, 111, 114, 116], [56, 48]⟩] },
    { name := [108], params := [⟨[112, 111, 114, 116], [56, 48]⟩, ⟨[112, 111, 114, 116], [56, 49]⟩] },
    portTable, fun _ => .num 0, by decide, by decide, by decide, by decide, by decide, by decide⟩

/-! ## Examples -/

/-- ` -0x1F`, that is -31. -/
private def hex31 : Numeral :=
  { ws := [32], sgn := some true, form := .hex false, digs := [(1, false), (15, true)] }

example : hex31.Ok :=
  ⟨by decide, by decide, (by intro h; cases h), (by intro u h; simp [hex31])⟩

example : hex31.value = -31 ∧ hex31.text = " -0x1F".toList.map Char.toNat ∧
    setInt hex31.text = some (.num (-31)) ∧ setPort hex31.text = none := by decide

/-- `010` is 8. -/
example : setPort [48, 49, 48] = some (.num 8) ∧ setPort [] = none ∧ setPort [48, 120] = none ∧
    setPort [54, 53, 53, 51, 54] = none := by decide

example : setBool [89, 101, 83] = some (.flag true) ∧ setString 3 [97, 98] = some (.text [97, 98]) ∧
    setString 2 [97, 98] = none := by decide

/-- Two blocks of one plugin and another one in between. -/
private def file3 : List Block :=
  [{ name := [108], body := [⟨[80], [56]⟩] }, { name := [109], body := [] },
    { name := [108], body := [⟨[112], [57]⟩, ⟨[113], [121, 101, 115]⟩] }]

example : loadOrder (parse file3) = [[108], [109]] ∧ stmts file3 [108] =
    [⟨[80], [56]⟩, ⟨[112], [57]⟩, ⟨[113], [121, 101, 115]⟩] := by decide

example : ((parse file3).map fun p => (sendAll [⟨[112], .port, 0⟩, ⟨[113], .bool, 1⟩] (fun _ => .num 0)
    p.params).vars 0) = [.num 8, .num 0] := by decide

end Verif.PlParam
