import Verif.ConfGenModel
import Verif.ConfProps

/-! # Lemmas about the generated configuration -/

namespace Verif.Conf

theorem started_run (v : Env) (cfg : List Block) (cli : List Cli)
    (d : Mem × List (Nat × Nat)) (es : List Entry) (h : started v cfg cli = some (d, es)) :
    run v cfg cli = .ok es := by
  unfold started at h
  unfold run
  cases hp : parse v.builtin { ifs := [], dflt := none } cfg with
  | none => rw [hp] at h; cases h
  | some st =>
    rw [hp] at h
    simp only [] at h ⊢
    cases hc : check v st.dflt (setDefaults (cli.foldl cliOpt v.builtin)
        (cli.foldl cliIf st.ifs)) with
    | crash => rw [hc] at h; cases h
    | rejected => rw [hc] at h; cases h
    | ok es' => rw [hc] at h; cases h; rfl

theorem rounds_ok (v : Env) (d : Mem) (dm : List (Nat × Nat)) : ∀ (es es' : List Entry),
    rounds v d dm es = some es' → ∀ e ∈ es', e.name ≠ [] ∧ bad v e.cnf e.mult = false := by
  intro es
  induction es with
  | nil => intro es' h e he; cases h; cases he
  | cons a es ih =>
    intro es' h e he
    have h : (round v d dm a).bind (fun e' => (rounds v d dm es).map (e' :: ·)) = some es' := h
    rw [Option.bind_eq_some_iff] at h
    obtain ⟨a', ha, h⟩ := h
    rw [Option.map_eq_some_iff] at h
    obtain ⟨t, ht, rfl⟩ := h
    rcases List.mem_cons.mp he with rfl | he
    · by_cases hp : Passes v d dm a
      · rw [round_pass v d dm a hp] at ha
        cases ha
        exact ⟨hp.1, hp.2⟩
      · rw [round_fail v d dm a hp] at ha
        cases ha
    · exact ih t ht e he

theorem run_ok (v : Env) (cfg : List Block) (cli : List Cli) (es : List Entry)
    (h : run v cfg cli = .ok es) : ∀ e ∈ es, e.name ≠ [] ∧ bad v e.cnf e.mult = false := by
  unfold run at h
  cases hp : parse v.builtin { ifs := [], dflt := none } cfg with
  | none => rw [hp] at h; cases h
  | some st =>
    rw [hp] at h
    simp only [] at h
    unfold check at h
    cases hr : rounds v (defaults v st.dflt).1 (defaults v st.dflt).2
        (setDefaults (cli.foldl cliOpt v.builtin) (cli.foldl cliIf st.ifs)) with
    | none => rw [hr] at h; cases h
    | some t =>
      rw [hr] at h
      cases h
      exact rounds_ok v _ _ _ es hr

theorem values_lines (f : Field) (q : Field → Bool) (t : Field → List UInt8) :
    ∀ fs : List Field, fs.Nodup →
    (fs.filterMap fun g => if q g then none else some (Setting.field g (t g))).filterMap
      (Setting.value f) = if f ∈ fs ∧ q f = false then [t f] else [] := by
  intro fs
  induction fs with
  | nil => intro _; rfl
  | cons g fs ih =>
    intro hd
    rw [List.nodup_cons] at hd
    rw [List.filterMap_cons]
    by_cases hg : g = f
    · subst hg
      have hih : (fs.filterMap fun g => if q g then none else some (Setting.field g (t g))).filterMap
          (Setting.value g) = [] := by
        rw [ih hd.2, if_neg (fun hh => hd.1 hh.1)]
      cases hq : q g with
      | true =>
        rw [if_pos rfl]
        show List.filterMap _ _ = _
        rw [hih, if_neg (fun hh => by cases hh.2)]
      | false =>
        rw [if_neg (by decide)]
        show (Setting.field g (t g) :: _).filterMap _ = _
        rw [List.filterMap_cons_some (b := t g) (by simp [Setting.value]), hih,
          if_pos ⟨List.mem_cons_self .., rfl⟩]
    · have hmem : f ∈ g :: fs ↔ f ∈ fs := by
        rw [List.mem_cons]
        constructor
        · rintro (h | h)
          · exact absurd h.symm hg
          · exact h
        · exact Or.inr
      have hgoal : (if f ∈ g :: fs ∧ q f = false then [t f] else []) =
          if f ∈ fs ∧ q f = false then [t f] else [] := by
        by_cases h1 : f ∈ fs ∧ q f = false
        · rw [if_pos h1, if_pos ⟨hmem.mpr h1.1, h1.2⟩]
        · rw [if_neg h1, if_neg (fun hh => h1 ⟨hmem.mp hh.1, hh.2⟩)]
      rw [hgoal, ← ih hd.2]
      cases hq : q g with
      | true => rfl
      | false =>
        rw [if_neg (by decide)]
        show (Setting.field g (t g) :: _).filterMap _ = _
        rw [List.filterMap_cons_none (by simp [Setting.value, hg])]

theorem lines_nodup : lineFields.Nodup := by decide

theorem lines_all (v : Env) (f : Field) (x : List UInt8) (h : plain v f x = false) :
    f ∈ lineFields := by
  cases f with
  | autodet => cases h
  | _ => decide

theorem lastOf_write (v : Env) (p : Print) (c : Bool) (m : Mem) (l : List (Nat × Nat))
    (f : Field) :
    lastOf f (writeIf v p c m l) =
      if plain v f (read m f) then none else some (shown p f (read m f)) := by
  unfold lastOf writeIf
  rw [List.filterMap_append,
    values_lines f (fun f => plain v f (read m f)) (fun f => shown p f (read m f)) lineFields
      lines_nodup]
  have hm : ((if c then l.map fun q => Setting.mult q.1 (p.mult q.2) else []).filterMap
      (Setting.value f)) = [] := by
    rw [List.filterMap_eq_nil_iff]
    intro s hs
    cases c with
    | false => cases hs
    | true =>
      obtain ⟨q, _, rfl⟩ := List.mem_map.mp hs
      rfl
  rw [hm, List.append_nil]
  cases hp : plain v f (read m f) with
  | true => rw [if_neg (fun hh => by cases hh.2)]; rfl
  | false => rw [if_pos ⟨lines_all v f _ hp, rfl⟩]; rfl

theorem mults_write (v : Env) (p : Print) (c : Bool) (m : Mem) (l : List (Nat × Nat)) :
    mults (writeIf v p c m l) = if c then l.map fun q => (q.1, p.mult q.2) else [] := by
  unfold mults writeIf
  rw [List.filterMap_append]
  have h1 : (lineFields.filterMap fun f => if plain v f (read m f) then none
      else some (Setting.field f (shown p f (read m f)))).filterMap Setting.isMult = [] := by
    rw [List.filterMap_eq_nil_iff]
    intro s hs
    obtain ⟨f, _, hf⟩ := List.mem_filterMap.mp hs
    by_cases hp : plain v f (read m f) = true
    · rw [if_pos hp] at hf; cases hf
    · rw [if_neg hp] at hf; cases hf; rfl
  rw [h1, List.nil_append]
  cases c with
  | false => rfl
  | true =>
    show (l.map fun q => Setting.mult q.1 (p.mult q.2)).filterMap Setting.isMult =
      l.map fun q => (q.1, p.mult q.2)
    rw [List.filterMap_map]
    induction l with
    | nil => rfl
    | cons q l ih =>
      rw [List.map_cons, ← ih]
      rfl

theorem mem_write (v : Env) (p : Print) (c : Bool) (m : Mem) (l : List (Nat × Nat)) (f : Field)
    (x : List UInt8) (h : Setting.field f x ∈ writeIf v p c m l) : x = shown p f (read m f) := by
  unfold writeIf at h
  rcases List.mem_append.mp h with h | h
  · obtain ⟨g, _, hg⟩ := List.mem_filterMap.mp h
    by_cases hp : plain v g (read m g) = true
    · rw [if_pos hp] at hg; cases hg
    · rw [if_neg hp] at hg; cases hg; rfl
  · cases c with
    | false => cases h
    | true =>
      obtain ⟨q, _, hq⟩ := List.mem_map.mp h
      cases hq

theorem own_writeIfs_none (v : Env) (p : Print) (n : List Nat) : ∀ (es : List Entry) (c : Bool),
    n ∉ es.map Entry.name → own (writeIfs v p c es) n = [] := by
  intro es
  induction es with
  | nil => intro c _; rfl
  | cons e es ih =>
    intro c h
    rw [List.map_cons, List.mem_cons, not_or] at h
    show (if n ∈ [e.name] then _ else []) ++ own (writeIfs v p false es) n = []
    rw [if_neg (by rw [List.mem_singleton]; exact h.1), ih false h.2]
    rfl

theorem own_writeIfs (v : Env) (p : Print) : ∀ (es : List Entry) (c : Bool),
    (es.map Entry.name).Nodup → ∀ e ∈ es, ∃ c' : Bool,
      own (writeIfs v p c es) e.name = writeIf v p c' e.cnf e.mult ∧
      (∀ e0 rest, es = e0 :: rest → e = e0 → c' = c) := by
  intro es
  induction es with
  | nil => intro c _ e he; cases he
  | cons a es ih =>
    intro c hd e he
    rw [List.map_cons, List.nodup_cons] at hd
    show ∃ c' : Bool, (if e.name ∈ [a.name] then writeIf v p c a.cnf a.mult else []) ++
      own (writeIfs v p false es) e.name = _ ∧ _
    rcases List.mem_cons.mp he with rfl | he
    · refine ⟨c, ?_, fun _ _ _ _ => rfl⟩
      rw [if_pos (List.mem_singleton.mpr rfl), own_writeIfs_none v p _ es false hd.1,
        List.append_nil]
    · obtain ⟨c', h1, _⟩ := ih false hd.2 e he
      have hne : e.name ≠ a.name := fun hh => hd.1 (hh ▸ List.mem_map_of_mem he)
      refine ⟨c', ?_, ?_⟩
      · rw [if_neg (by rw [List.mem_singleton]; exact hne), List.nil_append, h1]
      · intro e0 rest heq hee
        cases heq
        exact absurd (congrArg Entry.name hee) hne

theorem lastDefaults_write (v : Env) (p : Print) (d : Mem × List (Nat × Nat)) (es : List Entry) :
    lastDefaults (writeCnf v p d es) = some (writeIf v p false d.1 d.2) := by
  have : ∀ (es : List Entry) (c : Bool), (writeIfs v p c es).filterMap
      Block.ofDefaults = [] := by
    intro es
    induction es with
    | nil => intro c; rfl
    | cons e es ih =>
      intro c
      show List.filterMap _ (Block.iface _ _ :: writeIfs v p false es) = _
      rw [List.filterMap_cons_none rfl, ih]
  unfold lastDefaults writeCnf
  rw [List.filterMap_cons]
  show (writeIf v p false d.1 d.2 :: List.filterMap _ (writeIfs v p true es)).getLast? = _
  rw [this]
  rfl

theorem fileNames_write (v : Env) (p : Print) (d : Mem × List (Nat × Nat)) (es : List Entry) :
    fileNames (writeCnf v p d es) = es.map Entry.name := by
  have : ∀ (es : List Entry) (c : Bool), fileNames (writeIfs v p c es) = es.map Entry.name := by
    intro es
    induction es with
    | nil => intro c; rfl
    | cons e es ih =>
      intro c
      show [e.name] ++ fileNames (writeIfs v p false es) = _
      rw [ih]
      rfl
  show [] ++ fileNames (writeIfs v p true es) = _
  rw [this]
  rfl

theorem mem_writeIfs (v : Env) (p : Print) : ∀ (es : List Entry) (c : Bool) (b : Block),
    b ∈ writeIfs v p c es → ∃ e ∈ es, ∃ c', b = .iface [e.name] (writeIf v p c' e.cnf e.mult) := by
  intro es
  induction es with
  | nil => intro c b h; cases h
  | cons e es ih =>
    intro c b h
    rcases List.mem_cons.mp h with rfl | h
    · exact ⟨e, List.mem_cons_self .., c, rfl⟩
    · obtain ⟨a, ha, c', hc⟩ := ih false b h
      exact ⟨a, List.mem_cons_of_mem _ ha, c', hc⟩

theorem own_write (v : Env) (p : Print) (d : Mem × List (Nat × Nat)) (es : List Entry)
    (n : List Nat) : own (writeCnf v p d es) n = own (writeIfs v p true es) n := rfl

theorem noRepeat_write (v : Env) (p : Print) (d : Mem × List (Nat × Nat)) (es : List Entry) :
    NoRepeat (writeCnf v p d es) := by
  intro names ss h
  rcases List.mem_cons.mp h with h | h
  · cases h
  · obtain ⟨e, _, c, hc⟩ := mem_writeIfs v p es true _ h
    cases hc
    exact List.nodup_cons.mpr ⟨List.not_mem_nil, List.nodup_nil⟩

theorem read_length (m : Mem) (f : Field) : (read m f).length = f.len := by
  unfold read
  rw [List.length_map, List.length_range]

theorem sized_write (v : Env) (p : Print) (d : Mem × List (Nat × Nat)) (es : List Entry)
    (hd : ∀ f, shown p f (read d.1 f) = read d.1 f)
    (he : ∀ e ∈ es, ∀ f, shown p f (read e.cnf f) = read e.cnf f) :
    Sized (writeCnf v p d es) := by
  intro b hb ss hss f x hx
  rcases List.mem_cons.mp hb with rfl | hb
  · rcases hss with h | ⟨_, h⟩
    · cases h
      rw [mem_write v p _ _ _ f x hx, hd, read_length]
    · cases h
  · obtain ⟨e, hee, c, rfl⟩ := mem_writeIfs v p es true _ hb
    rcases hss with h | ⟨_, h⟩
    · cases h
    · cases h
      rw [mem_write v p _ _ _ f x hx, he e hee, read_length]

end Verif.Conf
