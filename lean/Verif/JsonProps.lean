import Verif.JsonLemmas
/-
C111: what the JSON writer writes is JSON, and means what the caller said.
-/
namespace Verif.Json

/-! ### Every document -/

private theorem closeText (p : Bool) :
    ∀ c ∈ (if p = true then ['\n'] else ([] : Str)), isWs c = true := by
  cases p <;> intro c hc
  · cases hc
  · rw [List.mem_singleton.mp hc]; rfl

private theorem ind_zero (p : Bool) : ind p 0 = [] := rfl

/-- The text of a whole document. -/
private theorem document_text (p : Bool) (t : Items Scalar) (hn : t.nest ≤ 14)
    (hc : t.count ≤ intMax) (hs : t.smaller (intMax + 1)) :
    ∃ s, execs (reset p) (document t) =
        .ok s ('{' :: (emit p 1 true t ++ ((if p then ['\n'] else []) ++ ['}']))) ∧
      s.depth = 0 ∧ s.pretty = p ∧ s.entry 0 = 0 := by
  obtain ⟨s1, hs1⟩ : ∃ s1, s1 = setEntry { reset p with depth := 1 } 1 0 := ⟨_, rfl⟩
  have ho : exec (reset p) (.output true) = .ok s1 ['{'] := by rw [hs1]; rfl
  have e1 : s1.entry 1 = 0 := by rw [hs1]; rfl
  have d1 : s1.depth = 1 := by rw [hs1]; rfl
  have p1 : s1.pretty = p := by rw [hs1]; rfl
  have e0 : s1.entry 0 = 0 := by rw [hs1]; rfl
  obtain ⟨s2, h1, h2, h3, h4, h5⟩ := execs_calls t s1
    (by rw [d1]; unfold maxDepth; omega) (by rw [d1, e1]; omega) hs
  rw [d1, e1, p1] at h1
  rw [d1] at h3 h5
  have hcl : exec s2 (.output false) = .ok { (setEntry s2 1 0) with depth := 0 }
      ((if p then ['\n'] else []) ++ ['}']) := by
    simp only [exec]
    rw [if_neg (by omega), h2, p1]
    simp only [indent_eq, ind_zero, List.nil_append]
  refine ⟨{ (setEntry s2 1 0) with depth := 0 }, ?_, rfl, ?_, ?_⟩
  · rw [document, execs_cons_ok ho (execs_append_ok h1 (execs_cons_ok hcl rfl))]
    simp only [List.append_nil, List.cons_append, List.nil_append, decide_true]
  · show s2.pretty = p; rw [h2, p1]
  · show (if 0 = 1 then 0 else s2.entry 0) = 0
    rw [if_neg (by decide), h5 0 (by omega), e0]

private theorem parse_text (p : Bool) (t : Items Scalar) (w : Str) (hw : wsOnly w)
    (hk : t.keyed false) (hcl : t.all clean cleanScalar) :
    parseObject ('{' :: (emit p 1 true t ++ ((if p then ['\n'] else []) ++ ['}'])) ++ w) =
      some (t.map denote) := by
  unfold parseObject
  rw [show '{' :: (emit p 1 true t ++ ((if p then ['\n'] else []) ++ ['}'])) ++ w =
      '{' :: (emit p 1 true t ++ ((if p then ['\n'] else []) ++ closer false :: w)) from by
        simp [closer]]
  rw [skipWs_cons (by decide)]
  simp only [if_true]
  have hlen := size_le_emit p t 1 true hcl
  rw [pItems_emit p t _ 1 false true _ w (by
      simp only [List.length_cons, List.length_append]; omega) hk hcl (closeText p)]
  simp only []
  have : skipWs w = [] := by
    have := skipWs_ws hw []
    rw [List.append_nil] at this
    rw [this]; rfl
  rw [if_pos this]

/-- Whatever tree of members a plugin writes between the opening and the closing
of the output, indented or not, the text is one JSON object, and a reader finds
in it exactly that tree: every key, every value, the nesting and the order.
The writer is ready for the next document.  (`out ++ ['\n']` is what the
plugins send.)  Missing for the unconditional statement: the strings must need
no escaping, see `C111_string`. -/
theorem C111_document_partial (p : Bool) (t : Items Scalar)
    (hkeys : t.keyed false) (hclean : t.all clean cleanScalar)
    (hn : t.nest ≤ 14) (hc : t.count ≤ intMax) (hs : t.smaller (intMax + 1)) :
    ∃ s out, execs (reset p) (document t) = .ok s out ∧
      parseObject out = some (t.map denote) ∧
      parseObject (out ++ ['\n']) = some (t.map denote) ∧
      s.depth = 0 ∧ s.pretty = p ∧ s.entry 0 = 0 := by
  obtain ⟨s, h1, h2, h3, h4⟩ := document_text p t hn hc hs
  refine ⟨s, _, h1, ?_, ?_, h2, h3, h4⟩
  · have := parse_text p t [] (by intro c hc; cases hc) hkeys hclean
    rwa [List.append_nil] at this
  · exact parse_text p t ['\n'] (by intro c hc; rw [List.mem_singleton.mp hc]; rfl) hkeys hclean

/-- A document like those of jsoninfo. -/
def sample : Items Scalar :=
  .leaf (some "pid".toList) (.int 4711)
    (.leaf (some "off".toList) (.int (-20))
      (.node (some "links".toList) true
        (.node none false
          (.leaf (some "up".toList) (.bool true)
            (.leaf (some "cost".toList) (.flt "-1.500000".toList)
              (.node (some "ips".toList) true
                (.leaf none (.str (some "10.0.0.1".toList))
                  (.leaf none (.str (some "10.0.0.2".toList)) .nil)) .nil)))
          (.node none false .nil .nil))
        (.leaf (some "uuid".toList) (.str none) .nil)))

/-- The text of `sample` without indentation, and what is read from it. -/
example :
    (match execs (reset false) (document sample) with
      | .ok _ out => out
      | _ => []) =
      ("{\"pid\": 4711,\"off\": -20,\"links\": [{\"up\": true,\"cost\": -1.500000," ++
        "\"ips\": [\"10.0.0.1\",\"10.0.0.2\"]},{}],\"uuid\": \"\"}").toList ∧
    (match execs (reset true) (document sample) with
      | .ok _ out => parseObject out
      | _ => none) = some (sample.map denote) := by decide +kernel

/-- `sample` meets the hypotheses. -/
example : sample.keyed false ∧ sample.nest ≤ 14 ∧ sample.count ≤ intMax ∧
    sample.smaller (intMax + 1) := by
  refine ⟨?_, by decide, by decide, ?_⟩
  · simp only [sample, Items.keyed]; decide
  · simp only [sample, Items.smaller]; decide

example : sample.all clean cleanScalar := by
  simp only [sample, Items.all, cleanScalar, clean]
  refine ⟨?_, by decide, ?_, by decide, ?_, ⟨?_, ⟨?_, trivial, ?_, ?_, ?_, ⟨?_, ?_, ?_, ?_, trivial⟩, trivial⟩, ?_, trivial, trivial⟩, ?_, ?_, trivial⟩
  all_goals first
    | (intro s hs; cases hs; done)
    | (intro s hs; cases hs; decide)
    | (refine ⟨true, ['1'], "500000".toList, by decide, by decide, by decide, by decide, by decide, by decide⟩)

/-! ### Too deep -/

private theorem execs_too_deep (t : Items Scalar) (s : Sess)
    (h0 : s.depth < maxDepth) (hd : maxDepth ≤ s.depth + t.nest)
    (hc : s.entry s.depth + t.count ≤ intMax) (hs : t.smaller (intMax + 1)) :
    execs s (calls t) = .abort := by
  induction t generalizing s with
  | nil => simp only [Items.nest] at hd; omega
  | leaf k v r ih =>
    simp only [Items.nest] at hd
    simp only [Items.count] at hc
    simp only [Items.smaller] at hs
    have he : exec s (.put k v) = .ok (setEntry s s.depth (s.entry s.depth + 1))
        (comma s ++ indent s ++ keyText k ++ scalarText v) := by
      simp only [exec]
      rw [if_neg (by omega), if_neg (by omega)]
    have := ih (setEntry s s.depth (s.entry s.depth + 1)) h0 hd
      (by simp only [setEntry, if_true]; omega) hs
    simp only [calls, execs, he, this]
  | node k a b r ihb ihr =>
    simp only [Items.nest] at hd
    simp only [Items.count] at hc
    simp only [Items.smaller] at hs
    obtain ⟨hcb, hsb, hsr⟩ := hs
    by_cases hlast : maxDepth ≤ s.depth + 1
    · have he : exec s (.mark true a k) = .abort := by
        simp only [exec]
        rw [if_neg (by omega), if_neg (by omega), if_pos hlast]
      simp only [calls, execs, he]
    · have he : exec s (.mark true a k) =
          .ok (setEntry { (setEntry s s.depth (s.entry s.depth + 1)) with depth := s.depth + 1 }
                (s.depth + 1) 0)
            (comma s ++ indent s ++ keyText k ++ (if a then ['['] else ['{'])) := by
        simp only [exec]
        rw [if_neg (by omega), if_neg (by omega), if_neg hlast]
      obtain ⟨s1, hs1⟩ : ∃ s1, s1 = setEntry
          { (setEntry s s.depth (s.entry s.depth + 1)) with depth := s.depth + 1 }
          (s.depth + 1) 0 := ⟨_, rfl⟩
      have e1d : s1.depth = s.depth + 1 := by rw [hs1]; rfl
      have e1e : s1.entry (s.depth + 1) = 0 := by rw [hs1]; simp [setEntry]
      have e1c : s1.entry s.depth = s.entry s.depth + 1 := by rw [hs1]; simp [setEntry]
      rw [← hs1] at he
      by_cases hb : maxDepth ≤ s1.depth + b.nest
      · have := ihb s1 (by omega) hb (by rw [e1d, e1e]; omega) hsb
        simp only [calls, execs, he, execs_append, this]
      · obtain ⟨s2, h1, h2, h3, h4, h5⟩ := execs_calls b s1 (by omega)
          (by rw [e1d, e1e]; omega) hsb
        rw [e1d] at h3 h5
        have hcl : exec s2 (.mark false a none) =
            .ok { (setEntry s2 s2.depth 0) with depth := s2.depth - 1 }
              (indent { s2 with depth := s2.depth - 1 } ++ (if a then [']'] else ['}'])) := by
          simp only [exec]
          rw [if_neg (by omega), if_neg (by omega)]
        obtain ⟨s3, hs3⟩ : ∃ s3, s3 =
            ({ (setEntry s2 s2.depth 0) with depth := s2.depth - 1 } : Sess) := ⟨_, rfl⟩
        have e3d : s3.depth = s.depth := by rw [hs3]; show s2.depth - 1 = _; omega
        have e3e : s3.entry s.depth = s.entry s.depth + 1 := by
          rw [hs3]; simp only [setEntry]
          rw [if_neg (by omega), h5 _ (by omega), e1c]
        rw [← hs3] at hcl
        have := ihr s3 (by omega) (by rw [e3d]; omega) (by rw [e3d, e3e]; omega) hsr
        simp only [calls, execs, he, execs_append, h1, hcl, this]

/-- A document with more than fourteen levels inside the outermost object is
never written to the wrong counters: the writer stops olsrd by an assertion. -/
theorem C111_too_deep (p : Bool) (t : Items Scalar) (hn : 14 < t.nest)
    (hc : t.count ≤ intMax) (hs : t.smaller (intMax + 1)) :
    execs (reset p) (document t) = .abort := by
  have ho : exec (reset p) (.output true) =
      .ok (setEntry { reset p with depth := 1 } 1 0) ['{'] := rfl
  have := execs_too_deep t (setEntry { reset p with depth := 1 } 1 0)
    (by show 1 < 16; decide) (by show 16 ≤ 1 + t.nest; omega)
    (by show 0 + t.count ≤ intMax; omega) hs
  simp only [document, execs, ho, execs_append, this]

/-- Fifteen nested arrays. -/
def tower : Nat → Items Scalar
  | 0 => .nil
  | n + 1 => .node none true (tower n) .nil

example : 14 < (tower 15).nest ∧ (tower 14).nest ≤ 14 ∧
    (match execs (reset false) (document (tower 15)) with | .abort => true | _ => false) = true := by
  decide +kernel

/-! ### Strings are not escaped -/

/-- Reading a string takes at least one character of text for each character
of the string and one for the quote; it takes no more only if nothing was
escaped. -/
private theorem pStr_length (n : Nat) (x v r : Str) (hx : x.length ≤ n) (h : pStr x = some (v, r)) :
    ∃ y, x = y ++ '"' :: r ∧ v.length ≤ y.length ∧ (v.length = y.length → clean v) := by
  induction n generalizing x v with
  | zero =>
    cases x with
    | nil => simp [pStr] at h
    | cons c x => simp at hx
  | succ n ih =>
    cases x with
    | nil => simp [pStr] at h
    | cons c x =>
      simp only [List.length_cons] at hx
      unfold pStr at h
      by_cases h1 : c = '"'
      · rw [if_pos h1] at h
        simp only [Option.some.injEq, Prod.mk.injEq] at h
        obtain ⟨hv, hr⟩ := h
        refine ⟨[], by rw [h1, ← hr]; rfl, by rw [← hv]; simp, ?_⟩
        intro _ d hd
        rw [← hv] at hd
        cases hd
      · rw [if_neg h1] at h
        by_cases h2 : c = '\\'
        · rw [if_pos h2] at h
          cases x with
          | nil => simp at h
          | cons e x1 =>
            simp only [] at h
            simp only [List.length_cons] at hx
            by_cases h3 : e = 'u'
            · rw [if_pos h3] at h
              match x1, h, hx with
              | a :: b :: c' :: d :: x2, h, hx =>
                simp only [] at h
                simp only [List.length_cons] at hx
                cases ha : hexVal a with
                | none => simp [ha] at h
                | some a' =>
                cases hb : hexVal b with
                | none => simp [ha, hb] at h
                | some b' =>
                cases hc : hexVal c' with
                | none => simp [ha, hb, hc] at h
                | some c'' =>
                cases hd : hexVal d with
                | none => simp [ha, hb, hc, hd] at h
                | some d' =>
                  simp only [ha, hb, hc, hd] at h
                  cases hp : pStr x2 with
                  | none => simp [hp] at h
                  | some q =>
                    rw [hp] at h
                    simp only [Option.map_some, Option.some.injEq, Prod.mk.injEq] at h
                    obtain ⟨hv, hr⟩ := h
                    obtain ⟨y, hy, hl, _⟩ := ih x2 q.1 (by omega) (by rw [hp, ← hr])
                    refine ⟨c :: e :: a :: b :: c' :: d :: y, by rw [hy]; rfl, ?_, ?_⟩
                    · rw [← hv]; simp only [List.length_cons]; omega
                    · intro he
                      rw [← hv] at he; simp only [List.length_cons] at he
                      omega
              | [], h, hx => simp at h
              | [_], h, hx => simp at h
              | [_, _], h, hx => simp at h
              | [_, _, _], h, hx => simp at h
            · rw [if_neg h3] at h
              cases hes : escVal e with
              | none => simp [hes] at h
              | some ch =>
                simp only [hes] at h
                cases hp : pStr x1 with
                | none => simp [hp] at h
                | some q =>
                  rw [hp] at h
                  simp only [Option.map_some, Option.some.injEq, Prod.mk.injEq] at h
                  obtain ⟨hv, hr⟩ := h
                  obtain ⟨y, hy, hl, _⟩ := ih x1 q.1 (by omega) (by rw [hp, ← hr])
                  refine ⟨c :: e :: y, by rw [hy]; rfl, ?_, ?_⟩
                  · rw [← hv]; simp only [List.length_cons]; omega
                  · intro he
                    rw [← hv] at he; simp only [List.length_cons] at he
                    omega
        · rw [if_neg h2] at h
          by_cases h3 : c.toNat < 32
          · rw [if_pos h3] at h; cases h
          · rw [if_neg h3] at h
            cases hp : pStr x with
            | none => simp [hp] at h
            | some q =>
              rw [hp] at h
              simp only [Option.map_some, Option.some.injEq, Prod.mk.injEq] at h
              obtain ⟨hv, hr⟩ := h
              obtain ⟨y, hy, hl, hcl⟩ := ih x q.1 (by omega) (by rw [hp, ← hr])
              refine ⟨c :: y, by rw [hy]; rfl, ?_, ?_⟩
              · rw [← hv]; simp only [List.length_cons]; omega
              · intro he d hd
                rw [← hv] at he hd
                simp only [List.length_cons] at he
                rcases List.mem_cons.mp hd with hd | hd
                · rw [hd]; exact ⟨h1, h2, by omega⟩
                · exact hcl (by omega) d hd

/-- A document with one string: the reader gets the string back exactly when
nothing in it needs escaping.  With a quote, a backslash or a control character
in the string the text means something else or is not JSON at all. -/
theorem C111_string (p : Bool) (key s : Str) (hk : clean key) :
    ∃ st out, execs (reset p) (document (.leaf (some key) (.str (some s)) .nil)) = .ok st out ∧
      (parseObject out = some (.leaf (some key) (.str s) .nil) ↔ clean s) := by
  obtain ⟨st, h1, _⟩ := document_text p (.leaf (some key) (.str (some s)) .nil)
    (by simp only [Items.nest]; decide) (by simp only [Items.count]; decide) trivial
  refine ⟨st, _, h1, ?_⟩
  constructor
  · intro hp
    have htext : '{' :: (emit p 1 true (.leaf (some key) (.str (some s)) .nil) ++
        ((if p then ['\n'] else []) ++ ['}'])) =
        '{' :: (sep p 1 true ++ (keyText (some key) ++ '"' ::
          (s ++ '"' :: ((if p then ['\n'] else []) ++ ['}'])))) := by
      simp only [emit, scalarText, List.append_assoc, List.cons_append, List.nil_append,
        List.append_nil]
    rw [htext] at hp
    unfold parseObject at hp
    rw [skipWs_cons (by decide)] at hp
    simp only [if_true] at hp
    obtain ⟨s1, hn, ho⟩ := pNext_key p 1 false true (some key) '"'
      (s ++ '"' :: ((if p then ['\n'] else []) ++ ['}'])) rfl
      (by intro u hu; cases hu; exact hk) (by decide) (by decide) (by decide)
    unfold pItems at hp
    rw [hn] at hp
    simp only [] at hp
    rw [ho] at hp
    simp only [] at hp
    rw [if_neg (by decide), if_pos trivial] at hp
    cases hps : pStr (s ++ '"' :: ((if p then ['\n'] else []) ++ ['}'])) with
    | none => rw [hps] at hp; cases hp
    | some q =>
      obtain ⟨v, r⟩ := q
      rw [hps] at hp
      simp only [] at hp
      have hv : v = s := by
        revert hp
        cases pItems _ false false r with
        | none => intro hp; cases hp
        | some z =>
          obtain ⟨t, r2⟩ := z
          simp only []
          by_cases hw : skipWs r2 = []
          · rw [if_pos hw]
            intro hp
            simp only [Option.some.injEq, Items.leaf.injEq, Atom.str.injEq] at hp
            exact hp.2.1
          · rw [if_neg hw]; intro hp; cases hp
      obtain ⟨y, hy, hl, hcl⟩ := pStr_length _ _ _ _ (Nat.le_refl _) hps
      rw [hv] at hl hcl
      refine hcl ?_
      -- the quote behind `y` cannot lie behind the quote behind `s`
      by_cases he : s.length = y.length
      · exact he
      · exfalso
        have hmem : '"' ∈ ((if p then ['\n'] else []) ++ ['}'] : Str) := by
          have h2 := congrArg (List.drop (s.length + 1)) hy
          have e1 : List.drop (s.length + 1) (s ++ '"' :: ((if p = true then ['\n'] else []) ++ ['}'])) =
              (if p = true then ['\n'] else []) ++ ['}'] := by
            rw [show s ++ '"' :: ((if p = true then ['\n'] else []) ++ ['}']) =
              (s ++ ['"']) ++ ((if p = true then ['\n'] else []) ++ ['}']) from by simp]
            rw [List.drop_left' (by simp)]
          rw [e1, List.drop_append_of_le_length (by omega)] at h2
          rw [h2]
          exact List.mem_append_right _ (List.mem_cons_self ..)
        revert hmem
        cases p <;> decide
  · intro hs
    have := parse_text p (.leaf (some key) (.str (some s)) .nil) [] (by intro c hc; cases hc)
      ⟨rfl, trivial⟩ ⟨(by intro u hu; cases hu; exact hk), (by intro u hu; cases hu; exact hs), trivial⟩
    rw [List.append_nil] at this
    exact this

/-- A quote in a plugin parameter makes the reply unreadable; a Windows path is
read back with a line feed in it. -/
theorem C111_unescaped_negation :
    (∃ (s : Str) (st : Sess) (out : Str),
      execs (reset false) (document (.leaf (some "value".toList) (.str (some s)) .nil)) = .ok st out ∧
      parseObject out = none) ∧
    (∃ (s s' : Str) (st : Sess) (out : Str),
      execs (reset false) (document (.leaf (some "value".toList) (.str (some s)) .nil)) = .ok st out ∧
      s' ≠ s ∧ parseObject out = some (.leaf (some "value".toList) (.str s') .nil)) := by
  constructor
  · obtain ⟨st, h, _⟩ := document_text false
      (.leaf (some "value".toList) (.str (some "say \"hi\"".toList)) .nil) (by decide) (by decide) trivial
    exact ⟨_, st, _, h, by decide +kernel⟩
  · obtain ⟨st, h, _⟩ := document_text false
      (.leaf (some "value".toList) (.str (some "C:\\new".toList)) .nil) (by decide) (by decide) trivial
    exact ⟨_, "C:\new".toList, st, _, h, by decide +kernel, by decide +kernel⟩

example : clean "olsrd".toList ∧ ¬ clean "C:\\new".toList := by
  constructor
  · unfold clean; decide
  · intro h
    exact absurd (h '\\' (by decide)).2.1 (by decide)

end Verif.Json
