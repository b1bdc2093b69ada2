import Verif.InfoCmdModel
/-
Which reports a request to an info plugin asks for.
-/
namespace Verif.InfoCmd

/-- A request made of segments: each is a name without slashes behind one or
more slashes. -/
def path : List (Nat × Str) → Str
  | [] => []
  | (n, seg) :: r => List.replicate (n + 1) '/' ++ (seg ++ path r)

/-- The names are not empty and have no slashes. -/
def Names (l : List (Nat × Str)) : Prop := ∀ q ∈ l, q.2 ≠ [] ∧ '/' ∉ q.2

/-- The reports of all names together. -/
def union (f : Str → Nat) : List (Nat × Str) → Nat
  | [] => 0
  | (_, seg) :: r => f ('/' :: seg) ||| union f r

private theorem skip_path (n : Nat) (seg rest : Str) (h1 : seg ≠ []) (h2 : '/' ∉ seg) :
    skipSlashes (List.replicate (n + 1) '/' ++ (seg ++ rest)) = '/' :: (seg ++ rest) := by
  induction n with
  | zero =>
    cases seg with
    | nil => exact absurd rfl h1
    | cons a seg =>
      have : a ≠ '/' := fun e => h2 (by rw [e]; exact List.mem_cons_self)
      show skipSlashes ('/' :: a :: (seg ++ rest)) = _
      rw [skipSlashes.eq_def]
      split
      · rename_i r heq
        injection heq with _ heq
        injection heq with heq _
        exact absurd heq this
      · rfl
  | succ n ih =>
    rw [List.replicate_succ, List.replicate_succ, List.cons_append, List.cons_append, skipSlashes]
    rw [List.replicate_succ, List.cons_append] at ih
    exact ih

private theorem take_seg (seg rest : Str) (h : '/' ∉ seg) (hr : rest = [] ∨ ∃ q, rest = '/' :: q) :
    (seg ++ rest).takeWhile (· ≠ '/') = seg ∧ (seg ++ rest).dropWhile (· ≠ '/') = rest := by
  induction seg with
  | nil =>
    rcases hr with rfl | ⟨q, rfl⟩
    · exact ⟨rfl, rfl⟩
    · exact ⟨by simp, by simp⟩
  | cons a seg ih =>
    have ha : a ≠ '/' := fun e => h (by rw [e]; exact List.mem_cons_self)
    obtain ⟨h1, h2⟩ := ih (fun e => h (List.mem_cons_of_mem _ e))
    constructor
    · rw [List.cons_append, List.takeWhile_cons, if_pos (by simpa using ha), h1]
    · rw [List.cons_append, List.dropWhile_cons, if_pos (by simpa using ha), h2]

private theorem path_head (l : List (Nat × Str)) : path l = [] ∨ ∃ q, path l = '/' :: q := by
  cases l with
  | nil => exact Or.inl rfl
  | cons a l =>
    obtain ⟨n, seg⟩ := a
    right
    exact ⟨_, by rw [path, List.replicate_succ, List.cons_append]⟩

private theorem segments_path (f : Str → Nat) : ∀ (l : List (Nat × Str)) (n action : Nat), Names l →
    l.length ≤ n →
    (∀ q ∈ l, f ('/' :: q.2) ≠ 0) → segments f n (path l) action = action ||| union f l
  | [], n, action, _, _, _ => by
    cases n with
    | zero => simp [segments, union]
    | succ n => simp [segments, union, path, skipSlashes]
  | (k, seg) :: l, n, action, hn, hl, hf => by
    cases n with
    | zero => simp at hl
    | succ n =>
      obtain ⟨h1, h2⟩ := hn (k, seg) List.mem_cons_self
      have hf0 := hf (k, seg) List.mem_cons_self
      obtain ⟨t1, t2⟩ := take_seg seg (path l) h2 (path_head l)
      have ih := segments_path f l n (action ||| f ('/' :: seg)) (fun q hq => hn q (List.mem_cons_of_mem _ hq))
        (by simpa using hl) (fun q hq => hf q (List.mem_cons_of_mem _ hq))
      unfold segments
      rw [path, skip_path k seg (path l) h1 h2]
      simp only [t1, t2]
      rw [if_neg hf0]
      show _ = action ||| (f ('/' :: seg) ||| union f l)
      rw [← Nat.or_assoc, ← ih]
      rcases path_head l with e | ⟨q, e⟩
      · rw [e]
        cases n with
        | zero => simp [segments]
        | succ n => simp [segments, skipSlashes]
      · rw [e]

private theorem segments_unknown (f : Str → Nat) : ∀ (l : List (Nat × Str)) (n action : Nat), Names l →
    l.length ≤ n → (∃ q ∈ l, f ('/' :: q.2) = 0) → segments f n (path l) action = 0
  | [], _, _, _, _, ⟨_, hq, _⟩ => by cases hq
  | (k, seg) :: l, n, action, hn, hl, hf => by
    cases n with
    | zero => simp at hl
    | succ n =>
      obtain ⟨h1, h2⟩ := hn (k, seg) List.mem_cons_self
      obtain ⟨t1, t2⟩ := take_seg seg (path l) h2 (path_head l)
      unfold segments
      rw [path, skip_path k seg (path l) h1 h2]
      simp only [t1, t2]
      by_cases hf0 : f ('/' :: seg) = 0
      · rw [if_pos hf0]
      · rw [if_neg hf0]
        have hf' : ∃ q ∈ l, f ('/' :: q.2) = 0 := by
          obtain ⟨q, hq, hz⟩ := hf
          rcases List.mem_cons.mp hq with rfl | hq
          · exact absurd hz hf0
          · exact ⟨q, hq, hz⟩
        have ih := segments_unknown f l n (action ||| f ('/' :: seg))
          (fun q hq => hn q (List.mem_cons_of_mem _ hq)) (by simpa using hl) hf'
        rcases path_head l with e | ⟨q, e⟩
        · exfalso
          cases l with
          | nil => obtain ⟨q, hq, _⟩ := hf'; cases hq
          | cons a l =>
            obtain ⟨m, sg⟩ := a
            rw [path, List.replicate_succ] at e
            cases e
        · rw [e] at ih ⊢
          exact ih

private theorem path_len (l : List (Nat × Str)) : l.length ≤ (path l).length := by
  induction l with
  | nil => exact Nat.le_refl _
  | cons a l ih =>
    obtain ⟨n, seg⟩ := a
    simp only [path, List.length_append, List.length_replicate, List.length_cons]
    omega

/-- A request with several segments asks for the reports of all of them; if one
is not known the whole request is not. -/
theorem C117_composite (p : Plugin) (hp : p.composite = true) (l : List (Nat × Str)) (hl : l ≠ []) (hn : Names l) :
    ((∀ q ∈ l, single p ('/' :: q.2) ≠ 0) → determine p (path l) = union (single p) l) ∧
    ((∃ q ∈ l, single p ('/' :: q.2) = 0) → determine p (path l) = 0) := by
  have hne : path l ≠ [] := by
    intro e
    have h1 := path_len l
    rw [e] at h1
    exact hl (List.length_eq_zero_iff.mp (Nat.le_zero.mp h1))
  have hd : determine p (path l) = segments (single p) (path l).length (path l) 0 := by
    unfold determine
    split
    · rename_i e; exact absurd e hne
    · rw [if_pos hp]
  rw [hd]
  constructor
  · intro h
    rw [segments_path _ l _ 0 hn (path_len l) h, Nat.zero_or]
  · intro h
    exact segments_unknown _ l _ 0 hn (path_len l) h

/-- Two commands, with a repeated slash between them. -/
example : path [(0, "links".toList), (1, "routes".toList)] = "/links//routes".toList ∧
    determine jsoninfo "/links//routes".toList = 2 ||| 4 ∧
    determine jsoninfo "/links/nothing/routes".toList = 0 := by decide +kernel

/- The commands of the plugins. -/

/-- The commands of jsoninfo with the numbers of the reports they ask for, as
its documentation lists them (lib/jsoninfo/README_JSONINFO), and
`/pudposition`, which it does not list. -/
def jsonDoc : List (String × List Nat) :=
  [("/neighbors", [0]), ("/links", [1]), ("/routes", [2]), ("/hna", [3]), ("/mid", [4]), ("/topology", [5]),
   ("/gateways", [6]), ("/interfaces", [7]), ("/2hop", [8]), ("/sgw", [9]), ("/pudposition", [10]),
   ("/runtime", [0, 1, 2, 3, 4, 5, 6, 7, 8, 9, 10]), ("/neighbours", [0, 1]),
   ("/version", [11]), ("/config", [12]), ("/plugins", [13]), ("/startup", [11, 12, 13]),
   ("/all", [0, 1, 2, 3, 4, 5, 6, 7, 8, 9, 10, 11, 12, 13]), ("/olsrd.conf", [14])]

/-- Those of txtinfo. -/
def txtDoc : List (String × List Nat) :=
  [("/nei", [0]), ("/lin", [1]), ("/rou", [2]), ("/hna", [3]), ("/mid", [4]), ("/top", [5]),
   ("/gat", [6]), ("/int", [7]), ("/2ho", [8]), ("/sgw", [9]),
   ("/runtime", [0, 1, 2, 3, 4, 5, 6, 7, 8, 9, 10]), ("/neighbours", [0, 1]),
   ("/ver", [11]), ("/startup", [11, 12, 13]),
   ("/all", [0, 1, 2, 3, 4, 5, 6, 7, 8, 9, 10, 11, 12, 13]), ("/con", [14])]

/-- Those of netjson. -/
def netDoc : List (String × List Nat) :=
  [("/NetworkRoutes", [15]), ("/NetworkGraph", [16]), ("/NetworkCollection", [19])]

/-- A number has exactly these bits. -/
def bitsAre (n : Nat) (bits : List Nat) : Prop := ∀ b, n.testBit b = decide (b ∈ bits)

private theorem bits_of (n : Nat) (bits : List Nat) (h1 : n < 2 ^ 24) (h2 : ∀ b ∈ bits, b < 24)
    (h : ∀ b < 24, n.testBit b = decide (b ∈ bits)) : bitsAre n bits := by
  intro b
  by_cases hb : b < 24
  · exact h b hb
  · have : n < 2 ^ b := Nat.lt_of_lt_of_le h1 (Nat.pow_le_pow_right (by decide) (by omega))
    rw [Nat.testBit_lt_two_pow this]
    symm
    exact decide_eq_false (fun hm => hb (h2 b hm))

private theorem singleLoop_none (p : Plugin) (s : Str) (h : ∀ q ∈ p.cmds, q.2 ≠ s) :
    ∀ l, singleLoop p s l = 0
  | [] => rfl
  | siw :: l => by
    unfold singleLoop
    have : isCommand p s siw = false := by
      unfold isCommand
      cases hl : p.cmds.lookup siw with
      | none => rfl
      | some c =>
        simp only []
        have : ∀ (m : List (Nat × Str)), (∀ q ∈ m, q.2 ≠ s) → m.lookup siw = some c → c ≠ s := by
          intro m
          induction m with
          | nil => intro _ h; cases h
          | cons a m ih =>
            intro hm hk
            obtain ⟨a1, a2⟩ := a
            rw [List.lookup_cons] at hk
            cases hb : siw == a1 with
            | true =>
              rw [hb] at hk
              injection hk with hk
              subst hk
              exact hm (a1, a2) List.mem_cons_self
            | false =>
              rw [hb] at hk
              exact ih (fun q hq => hm q (List.mem_cons_of_mem _ hq)) hk
        exact decide_eq_false (fun e => this p.cmds h hl e.symm)
    rw [this, Bool.and_false, if_neg (by decide)]
    exact singleLoop_none p s h l

/-- A plugin follows its documentation. -/
def Follows (p : Plugin) (doc : List (String × List Nat)) : Prop :=
  (∀ q ∈ doc, bitsAre (single p q.1.toList) q.2) ∧
  (∀ s : Str, (∀ q ∈ doc, q.1.toList ≠ s) → single p s = 0)

private theorem follows_of (p : Plugin) (doc : List (String × List Nat))
    (h1 : ∀ q ∈ doc, single p q.1.toList < 2 ^ 24 ∧ (∀ b ∈ q.2, b < 24) ∧
      ∀ b < 24, (single p q.1.toList).testBit b = decide (b ∈ q.2))
    (h2 : ∀ q ∈ p.cmds, ∃ r ∈ doc, r.1.toList = q.2) : Follows p doc := by
  constructor
  · intro q hq
    obtain ⟨g1, g2, g3⟩ := h1 q hq
    exact bits_of _ _ g1 g2 g3
  · intro s hs
    unfold single
    split
    · rfl
    · apply singleLoop_none
      intro q hq e
      obtain ⟨r, hr, he⟩ := h2 q hq
      exact hs r hr (he.trans e)

/-- Each command of jsoninfo, txtinfo and netjson asks for its reports and no
other text is a command. -/
theorem C117_commands : Follows jsoninfo jsonDoc ∧ Follows txtinfo txtDoc ∧ Follows netjson netDoc :=
  ⟨follows_of _ _ (by decide +kernel) (by decide +kernel),
   follows_of _ _ (by decide +kernel) (by decide +kernel),
   follows_of _ _ (by decide +kernel) (by decide +kernel)⟩

example : single jsoninfo "/neighbours".toList = 3 ∧ single txtinfo "/plugins".toList = 0 := by decide +kernel

/- What is written. -/

/-- All requested reports are written if they are of one kind. -/
theorem C117_written_partial (what : Nat)
    (h : what &&& ALL = what ∨ what &&& NETJSON = what ∨ what &&& POPROUTING = what ∨ what &&& OLSRD_CONF = what) :
    written what = what := by
  have key : ∀ a b : Nat, a &&& b = 0 → ∀ w, w &&& a = w → w &&& b = 0 := by
    intro a b hab w hw
    rw [← hw, Nat.and_assoc, hab, Nat.and_zero]
  unfold written
  rcases h with h | h | h | h
  · by_cases h0 : what &&& ALL ≠ 0
    · rw [if_pos h0, h]
    · have hz : what = 0 := by rw [← h]; exact Decidable.not_not.mp h0
      subst hz
      decide
  · have e1 : what &&& ALL = 0 := key NETJSON ALL (by decide) what h
    rw [if_neg (by rw [e1]; decide)]
    by_cases h0 : what &&& NETJSON ≠ 0
    · rw [if_pos h0, h]
    · have hz : what = 0 := by rw [← h]; exact Decidable.not_not.mp h0
      subst hz
      decide
  · have e1 : what &&& ALL = 0 := key POPROUTING ALL (by decide) what h
    have e2 : what &&& NETJSON = 0 := key POPROUTING NETJSON (by decide) what h
    rw [if_neg (by rw [e1]; decide), if_neg (by rw [e2]; decide)]
    by_cases h0 : what &&& POPROUTING ≠ 0
    · rw [if_pos h0, h]
    · have hz : what = 0 := by rw [← h]; exact Decidable.not_not.mp h0
      subst hz
      decide
  · have e1 : what &&& ALL = 0 := key OLSRD_CONF ALL (by decide) what h
    have e2 : what &&& NETJSON = 0 := key OLSRD_CONF NETJSON (by decide) what h
    have e3 : what &&& POPROUTING = 0 := key OLSRD_CONF POPROUTING (by decide) what h
    rw [if_neg (by rw [e1]; decide), if_neg (by rw [e2]; decide), if_neg (by rw [e3]; decide), h]

example : (2 ||| 4) &&& ALL = 2 ||| 4 := by decide

/-- A report asked for together with the configuration file: the configuration
file is left out without any notice. -/
theorem C117_mixed_negation :
    determine jsoninfo "/links/olsrd.conf".toList = 2 ||| OLSRD_CONF ∧
    written (determine jsoninfo "/links/olsrd.conf".toList) = 2 := by
  decide +kernel

/- poprouting. -/

/-- A command of poprouting with or without a value: a name without equals
signs, and perhaps one and a value. -/
theorem C117_pop_partial (nonneg : Str → Bool) (prefix_ name value : Str) (h1 : name ≠ []) (h2 : '=' ∉ name)
    (h3 : value ≠ []) (h4 : '=' ∉ value) :
    popIsCommand nonneg prefix_ name = .is (name = prefix_) ∧
    popIsCommand nonneg prefix_ (name ++ '=' :: value) = .is (name = prefix_ && nonneg value) := by
  have tok : ∀ (n rest : Str), n ≠ [] → '=' ∉ n → (rest = [] ∨ ∃ q, rest = '=' :: q) →
      token (n ++ rest) = some (n, rest) := by
    intro n rest hn hq hr
    have hd : (n ++ rest).dropWhile (fun c => decide (c = '=')) = n ++ rest := by
      cases n with
      | nil => exact absurd rfl hn
      | cons a n =>
        have : a ≠ '=' := fun e => hq (by rw [e]; exact List.mem_cons_self)
        rw [List.cons_append, List.dropWhile_cons, if_neg (by simpa using this)]
    have ht : ∀ m : Str, '=' ∉ m → (m ++ rest).takeWhile (fun c => decide (c ≠ '=')) = m ∧
        (m ++ rest).dropWhile (fun c => decide (c ≠ '=')) = rest := by
      intro m
      induction m with
      | nil =>
        intro _
        rcases hr with rfl | ⟨q, rfl⟩
        · exact ⟨rfl, rfl⟩
        · exact ⟨by simp, by simp⟩
      | cons a m ih =>
        intro hm
        have ha : a ≠ '=' := fun e => hm (by rw [e]; exact List.mem_cons_self)
        obtain ⟨g1, g2⟩ := ih (fun e => hm (List.mem_cons_of_mem _ e))
        constructor
        · rw [List.cons_append, List.takeWhile_cons, if_pos (by simpa using ha), g1]
        · rw [List.cons_append, List.dropWhile_cons, if_pos (by simpa using ha), g2]
    unfold token
    rw [hd]
    obtain ⟨t1, t2⟩ := ht n hq
    cases hx : n ++ rest with
    | nil =>
      cases n with
      | nil => exact absurd rfl hn
      | cons a n => cases hx
    | cons a b =>
      simp only []
      rw [← hx, t1, t2]
  have tnil : token [] = none := rfl
  constructor
  · have := tok name [] h1 h2 (Or.inl rfl)
    rw [List.append_nil] at this
    unfold popIsCommand
    simp only [this, tnil]
  · have a1 := tok name ('=' :: value) h1 h2 (Or.inr ⟨_, rfl⟩)
    have a2 := tok value [] h3 h4 (Or.inl rfl)
    rw [List.append_nil] at a2
    have a3 : token ('=' :: value) = token value := by
      unfold token
      rw [List.dropWhile_cons, if_pos (by decide)]
    unfold popIsCommand
    simp only [a1, a3, a2]

example : popIsCommand (fun _ => true) "/tcTimer".toList "/tcTimer=2.5".toList = .is true ∧
    popIsCommand (fun _ => true) "/tcTimer".toList "/tcTimerMult".toList = .is false := by decide +kernel

/-- A request made of equals signs only makes poprouting compare a null
pointer: olsrd crashes. -/
theorem C117_pop_crash (nonneg : Str → Bool) (prefix_ : Str) (n : Nat) :
    popIsCommand nonneg prefix_ (List.replicate n '=') = .crash := by
  have : (List.replicate n '=').dropWhile (fun c => decide (c = '=')) = [] := by
    induction n with
    | zero => rfl
    | succ n ih =>
      rw [List.replicate_succ, List.dropWhile_cons, if_pos (by decide)]
      exact ih
  unfold popIsCommand token
  rw [this]

example : popIsCommand (fun _ => true) "/tcTimer".toList ['='] = .crash := by decide

end Verif.InfoCmd
