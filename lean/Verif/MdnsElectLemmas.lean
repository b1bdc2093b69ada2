import Verif.MdnsElectSpec
/-
Helper lemmas about the election of the mdns plugin.
-/
namespace Verif.MdnsElect

/-! ### Comparing addresses -/

theorem memLt_iff : ∀ (a b : List Nat), memLt a b = true ↔ Smaller a b := by
  intro a
  induction a with
  | nil =>
    intro b
    constructor
    · intro h; simp [memLt] at h
    · rintro ⟨i, x, y, _, hx, _, _⟩; simp at hx
  | cons p as ih =>
    intro b
    cases b with
    | nil =>
      constructor
      · intro h; simp [memLt] at h
      · rintro ⟨i, x, y, _, _, hy, _⟩; simp at hy
    | cons q bs =>
      constructor
      · intro h
        by_cases h1 : p < q
        · exact ⟨0, p, q, by simp, by simp, by simp, h1⟩
        · by_cases h2 : q < p
          · simp [memLt, h1, h2] at h
          · have hpq : p = q := by omega
            simp only [memLt, if_neg h1, if_neg h2] at h
            obtain ⟨i, x, y, ht, hx, hy, hlt⟩ := (ih bs).1 h
            exact ⟨i + 1, x, y, by simp [ht, hpq], by simpa using hx, by simpa using hy, hlt⟩
      · rintro ⟨i, x, y, ht, hx, hy, hlt⟩
        cases i with
        | zero =>
          simp at hx hy
          subst hx; subst hy
          simp [memLt, hlt]
        | succ i =>
          simp at ht hx hy
          have h1 : ¬ p < q := by omega
          have h2 : ¬ q < p := by omega
          simp only [memLt, if_neg h1, if_neg h2]
          exact (ih bs).2 ⟨i, x, y, ht.2, hx, hy, hlt⟩

theorem memLt_total : ∀ (a b : List Nat), a.length = b.length →
    a ≠ b → memLt a b = true ∨ memLt b a = true := by
  intro a
  induction a with
  | nil => intro b hl hne; cases b with
    | nil => exact absurd rfl hne
    | cons => simp at hl
  | cons p as ih =>
    intro b hl hne
    cases b with
    | nil => simp at hl
    | cons q bs =>
      by_cases h1 : p < q
      · left; simp [memLt, h1]
      · by_cases h2 : q < p
        · right; simp [memLt, h2]
        · have hpq : p = q := by omega
          subst hpq
          have : as ≠ bs := fun h => hne (by rw [h])
          rcases ih bs (by simpa using hl) this with h | h
          · left; simp [memLt, h]
          · right; simp [memLt, h]

theorem memLt_asymm : ∀ (a b : List Nat), memLt a b = true → memLt b a = false := by
  intro a
  induction a with
  | nil => intro b h; simp [memLt] at h
  | cons p as ih =>
    intro b h
    cases b with
    | nil => simp [memLt] at h
    | cons q bs =>
      by_cases h1 : p < q
      · have h2 : ¬ q < p := by omega
        simp [memLt, h1, h2]
      · by_cases h2 : q < p
        · simp [memLt, h1, h2] at h
        · simp only [memLt, if_neg h1, if_neg h2] at h ⊢
          exact ih bs h

/-! ### Recognising hellos -/

theorem list4 {l : List Nat} (h : l.length = 4) : ∃ a b c d, l = [a, b, c, d] := by
  match l, h with
  | [a, b, c, d], _ => exact ⟨a, b, c, d, rfl⟩

theorem parse_of_announces {v6 : Bool} {pkt rid : List Nat} {net : Nat}
    (h : Announces v6 pkt net rid) : parseHello pkt = some (v6, net, rid) := by
  obtain ⟨fam, addr, rest, hp, hf, ha, hv, hr⟩ := h
  obtain ⟨a, b, c, d, rfl⟩ := list4 hf
  subst hp
  have h25 : ¬ ([36, 82, 69, 80] ++ [a, b, c, d] ++ addr ++ net :: rest).length < 25 := by
    simp [ha]
    omega
  have hg : ([36, 82, 69, 80] ++ [a, b, c, d] ++ addr ++ net :: rest).getD 24 0 = net := by
    rw [List.getD_eq_getElem?_getD, List.getElem?_append_right (by simp [ha])]
    simp [ha]
  have hd : ([36, 82, 69, 80] ++ [a, b, c, d] ++ addr ++ net :: rest).drop 8
      = addr ++ net :: rest := by simp
  have ht : ∀ n, n ≤ 16 → (addr ++ net :: rest).take n = addr.take n := by
    intro n hn
    rw [List.take_append_of_le_length (by omega)]
  unfold parseHello
  rw [if_neg (by simp [magic]), if_neg h25, hg, hd, ht 4 (by omega), ht 16 (by omega)]
  have h4 : (([36, 82, 69, 80] ++ [a, b, c, d] ++ addr ++ net :: rest).drop 4).take 4
      = [a, b, c, d] := by simp
  rw [h4]
  cases v6 with
  | false =>
    rw [if_pos (show [a, b, c, d] = afInet from hv.2 rfl), hr]
    rfl
  | true =>
    rw [if_neg (show ¬ [a, b, c, d] = afInet from fun hh => by
      have := hv.1 hh
      cases this), hr]
    rfl

theorem announces_of_parse {v6 : Bool} {pkt rid : List Nat} {net : Nat}
    (h : parseHello pkt = some (v6, net, rid)) : Announces v6 pkt net rid := by
  unfold parseHello at h
  by_cases h1 : pkt.length < 4 ∨ pkt.take 4 ≠ magic
  · rw [if_pos h1] at h; cases h
  rw [if_neg h1] at h
  by_cases h2 : pkt.length < 25
  · rw [if_pos h2] at h; cases h
  rw [if_neg h2] at h
  have hm : pkt.take 4 = [36, 82, 69, 80] := by
    by_cases hx : pkt.take 4 = magic
    · exact hx
    · exact absurd (Or.inr hx) h1
  have hlen : 25 ≤ pkt.length := by omega
  have hshape : pkt = [36, 82, 69, 80] ++ (pkt.drop 4).take 4 ++ (pkt.drop 8).take 16 ++
      pkt.getD 24 0 :: pkt.drop 25 := by
    have e1 : pkt.getD 24 0 :: pkt.drop 25 = pkt.drop 24 := by
      rw [List.drop_eq_getElem_cons (show 24 < pkt.length by omega), List.getD_eq_getElem?_getD,
        List.getElem?_eq_getElem (show 24 < pkt.length by omega)]
      rfl
    have e2 : (pkt.drop 8).take 16 ++ pkt.drop 24 = pkt.drop 8 := by
      rw [← List.drop_drop (i := 16) (j := 8)]
      exact List.take_append_drop 16 (pkt.drop 8)
    have e3 : (pkt.drop 4).take 4 ++ pkt.drop 8 = pkt.drop 4 := by
      rw [← List.drop_drop (i := 4) (j := 4)]
      exact List.take_append_drop 4 (pkt.drop 4)
    rw [e1, List.append_assoc, List.append_assoc, e2, e3, ← hm, List.take_append_drop]
  have hf : ((pkt.drop 4).take 4).length = 4 := by simp; omega
  have ha : ((pkt.drop 8).take 16).length = 16 := by simp; omega
  by_cases h3 : (pkt.drop 4).take 4 = afInet
  · rw [if_pos h3] at h
    cases h
    exact ⟨_, _, _, hshape, hf, ha, ⟨fun _ => rfl, fun _ => h3⟩, by
      simp only [Bool.false_eq_true, if_false, List.take_take]; rfl⟩
  · rw [if_neg h3] at h
    cases h
    exact ⟨_, _, _, hshape, hf, ha, ⟨fun hh => absurd hh h3, fun hh => by cases hh⟩, by
      simp only [if_true, List.take_take]; rfl⟩

theorem parse_iff {v6 : Bool} {pkt rid : List Nat} {net : Nat} :
    parseHello pkt = some (v6, net, rid) ↔ Announces v6 pkt net rid :=
  ⟨announces_of_parse, parse_of_announces⟩

/-! ### The router list -/

/-- Some entry of the router has more than `j` rounds to go. -/
def Live (rl : List Entry) (skfd net : Nat) (rid : List Nat) (j : Nat) : Prop :=
  ∃ e ∈ rl, e.skfd = skfd ∧ e.net = net ∧ e.rid = rid ∧ j < e.ttl

theorem same_iff (e t : Entry) :
    sameRouter e t = true ↔ t.net = e.net ∧ t.skfd = e.skfd ∧ t.rid = e.rid := by
  unfold sameRouter
  rw [Bool.and_eq_true, Bool.and_eq_true, beq_iff_eq, beq_iff_eq, beq_iff_eq]
  constructor
  · rintro ⟨⟨a, b⟩, c⟩; exact ⟨a, b, c.symm⟩
  · rintro ⟨a, b, c⟩; exact ⟨⟨a, b⟩, c.symm⟩

theorem refresh_exist (e : Entry) : ∀ rl : List Entry,
    (refresh e rl).2 = true ↔ ∃ t ∈ rl, sameRouter e t = true := by
  intro rl
  induction rl with
  | nil => simp [refresh]
  | cons t ts ih => simp [refresh, Bool.or_eq_true, ih]

theorem refresh_fst (e : Entry) : ∀ rl : List Entry,
    (refresh e rl).1 = rl.map (fun t => if sameRouter e t then { t with ttl := e.ttl } else t) := by
  intro rl
  induction rl with
  | nil => rfl
  | cons t ts ih => simp [refresh, ih]

theorem live_update {s : St} {e : Entry} (skfd net : Nat) (rid : List Nat) (j : Nat) :
    Live (updateRouterList s s.v6 e).rl skfd net rid j ↔
      (if e.skfd = skfd ∧ e.net = net ∧ e.rid = rid then j < e.ttl
       else Live s.rl skfd net rid j) := by
  have hkeys : ∀ t : Entry,
      (if sameRouter e t then { t with ttl := e.ttl } else t).skfd = t.skfd ∧
      (if sameRouter e t then { t with ttl := e.ttl } else t).net = t.net ∧
      (if sameRouter e t then { t with ttl := e.ttl } else t).rid = t.rid := by
    intro t; split <;> exact ⟨rfl, rfl, rfl⟩
  have hmap : Live (s.rl.map (fun t => if sameRouter e t then { t with ttl := e.ttl } else t))
      skfd net rid j ↔ ∃ t ∈ s.rl, t.skfd = skfd ∧ t.net = net ∧ t.rid = rid ∧
        j < (if sameRouter e t then { t with ttl := e.ttl } else t).ttl := by
    unfold Live
    constructor
    · rintro ⟨x, hx, h⟩
      obtain ⟨t, ht, rfl⟩ := List.mem_map.1 hx
      obtain ⟨k1, k2, k3⟩ := hkeys t
      rw [k1, k2, k3] at h
      exact ⟨t, ht, h⟩
    · rintro ⟨t, ht, h⟩
      obtain ⟨k1, k2, k3⟩ := hkeys t
      exact ⟨_, List.mem_map.2 ⟨t, ht, rfl⟩, by rw [k1, k2, k3]; exact h⟩
  unfold updateRouterList
  rw [if_neg (by simp)]
  by_cases hk : e.skfd = skfd ∧ e.net = net ∧ e.rid = rid
  · rw [if_pos hk]
    have hmatch : ∀ t : Entry, (t.skfd = skfd ∧ t.net = net ∧ t.rid = rid) →
        sameRouter e t = true := by
      intro t h
      rw [same_iff]
      exact ⟨by rw [h.2.1, hk.2.1], by rw [h.1, hk.1], by rw [h.2.2, hk.2.2]⟩
    by_cases hx : (refresh e s.rl).2 = true
    · rw [if_pos hx]
      simp only []
      rw [refresh_fst, hmap]
      constructor
      · rintro ⟨t, ht, h1, h2, h3, h4⟩
        rw [if_pos (hmatch t ⟨h1, h2, h3⟩)] at h4
        exact h4
      · intro hj
        obtain ⟨t, ht, hs⟩ := (refresh_exist e s.rl).1 hx
        have hs' := (same_iff e t).1 hs
        refine ⟨t, ht, by rw [hs'.2.1, hk.1], by rw [hs'.1, hk.2.1], by rw [hs'.2.2, hk.2.2], ?_⟩
        rw [if_pos hs]
        exact hj
    · rw [if_neg hx]
      simp only []
      rw [refresh_fst]
      constructor
      · rintro ⟨x, hx', h1, h2, h3, h4⟩
        rcases List.mem_append.1 hx' with hm | hm
        · obtain ⟨t, ht, h⟩ := hmap.1 ⟨x, hm, h1, h2, h3, h4⟩
          exact absurd ((refresh_exist e s.rl).2 ⟨t, ht, hmatch t ⟨h.1, h.2.1, h.2.2.1⟩⟩) hx
        · rw [List.mem_singleton] at hm
          subst hm
          exact h4
      · intro hj
        exact ⟨e, List.mem_append.2 (Or.inr (List.mem_singleton.2 rfl)), hk.1, hk.2.1, hk.2.2, hj⟩
  · rw [if_neg hk]
    have hno : ∀ t : Entry, (t.skfd = skfd ∧ t.net = net ∧ t.rid = rid) →
        ¬ sameRouter e t = true := by
      intro t h hs
      have hs' := (same_iff e t).1 hs
      exact hk ⟨by rw [← hs'.2.1, h.1], by rw [← hs'.1, h.2.1], by rw [← hs'.2.2, h.2.2]⟩
    have hsame : Live (s.rl.map (fun t => if sameRouter e t then { t with ttl := e.ttl } else t))
        skfd net rid j ↔ Live s.rl skfd net rid j := by
      rw [hmap]
      unfold Live
      constructor
      · rintro ⟨t, ht, h1, h2, h3, h4⟩
        rw [if_neg (hno t ⟨h1, h2, h3⟩)] at h4
        exact ⟨t, ht, h1, h2, h3, h4⟩
      · rintro ⟨t, ht, h1, h2, h3, h4⟩
        refine ⟨t, ht, h1, h2, h3, ?_⟩
        rw [if_neg (hno t ⟨h1, h2, h3⟩)]
        exact h4
    by_cases hx : (refresh e s.rl).2 = true
    · rw [if_pos hx]
      simp only []
      rw [refresh_fst]
      exact hsame
    · rw [if_neg hx]
      simp only []
      rw [refresh_fst, ← hsame]
      constructor
      · rintro ⟨x, hx', h1, h2, h3, h4⟩
        rcases List.mem_append.1 hx' with hm | hm
        · exact ⟨x, hm, h1, h2, h3, h4⟩
        · rw [List.mem_singleton] at hm
          subst hm
          exact absurd ⟨h1, h2, h3⟩ hk
      · rintro ⟨x, hx', h⟩
        exact ⟨x, List.mem_append.2 (Or.inl hx'), h⟩

/-! ### The election -/

theorem electOne_act (own : List Nat) (net esk : Nat) : ∀ (rl : List Entry) (act : Bool),
    (electOne own net esk rl act).1 = true ↔
      act = true ∧ ¬ ∃ e ∈ rl, e.net = net ∧ e.skfd = esk ∧ memLt e.rid own = true := by
  intro rl
  induction rl with
  | nil => intro act; simp [electOne]
  | cons t ts ih =>
    intro act
    simp only [electOne]
    rw [ih]
    by_cases h : t.net = net ∧ t.skfd = esk ∧ memLt t.rid own = true
    · rw [if_pos h]
      constructor
      · intro hh; cases hh.1
      · intro hh; exact absurd ⟨t, List.mem_cons_self, h⟩ hh.2
    · rw [if_neg h]
      constructor
      · rintro ⟨ha, hn⟩
        refine ⟨ha, ?_⟩
        rintro ⟨e, he, hp⟩
        rcases List.mem_cons.1 he with rfl | he
        · exact h hp
        · exact hn ⟨e, he, hp⟩
      · rintro ⟨ha, hn⟩
        exact ⟨ha, fun ⟨e, he, hp⟩ => hn ⟨e, List.mem_cons_of_mem _ he, hp⟩⟩

theorem electOne_live (own : List Nat) (net esk : Nat) (skfd n : Nat) (rid : List Nat) :
    ∀ (rl : List Entry) (act : Bool) (j : Nat),
    Live (electOne own net esk rl act).2 skfd n rid j ↔ Live rl skfd n rid (j + 1) := by
  intro rl
  induction rl with
  | nil => intro act j; simp [electOne, Live]
  | cons t ts ih =>
    intro act j
    simp only [electOne]
    constructor
    · rintro ⟨x, hx, h⟩
      rcases List.mem_append.1 hx with hm | hm
      · by_cases hz : t.ttl - 1 ≤ 0
        · rw [if_pos hz] at hm; simp at hm
        · rw [if_neg hz, List.mem_singleton] at hm
          subst hm
          exact ⟨t, List.mem_cons_self, h.1, h.2.1, h.2.2.1, by have := h.2.2.2; simp only [] at this; omega⟩
      · obtain ⟨e, he, hp⟩ := (ih _ j).1 ⟨x, hm, h⟩
        exact ⟨e, List.mem_cons_of_mem _ he, hp⟩
    · rintro ⟨e, he, h⟩
      rcases List.mem_cons.1 he with rfl | he
      · refine ⟨{ e with ttl := e.ttl - 1 }, List.mem_append.2 (Or.inl ?_), h.1, h.2.1, h.2.2.1, ?_⟩
        · have := h.2.2.2
          rw [if_neg (by omega), List.mem_singleton]
        · have := h.2.2.2
          simp only []
          omega
      · obtain ⟨x, hx, hp⟩ := (ih (if t.net = net ∧ t.skfd = esk ∧ memLt t.rid own = true
          then false else act) j).2 ⟨e, he, h⟩
        exact ⟨x, List.mem_append.2 (Or.inr hx), hp⟩

/-- All entries have something to go. -/
def Pos (rl : List Entry) : Prop := ∀ e ∈ rl, 0 < e.ttl

theorem electOne_pos (own : List Nat) (net esk : Nat) : ∀ (rl : List Entry) (act : Bool),
    Pos (electOne own net esk rl act).2 := by
  intro rl
  induction rl with
  | nil => intro act e he; simp [electOne] at he
  | cons t ts ih =>
    intro act e he
    simp only [electOne] at he
    rcases List.mem_append.1 he with hm | hm
    · by_cases hz : t.ttl - 1 ≤ 0
      · rw [if_pos hz] at hm; simp at hm
      · rw [if_neg hz, List.mem_singleton] at hm
        subst hm
        simp only []
        omega
    · exact ih _ e hm

theorem electAll_live (own : List Nat) (net : Nat) (skfd n : Nat) (rid : List Nat) :
    ∀ (ifs : List Ifc) (rl : List Entry) (j : Nat),
    Live (electAll own net ifs rl).2 skfd n rid j ↔ Live rl skfd n rid (j + ifs.length) := by
  intro ifs
  induction ifs with
  | nil => intro rl j; simp [electAll]
  | cons i is ih =>
    intro rl j
    simp only [electAll]
    by_cases h : rl = []
    · rw [if_pos h]
      simp only []
      rw [ih, h]
      simp [Live]
    · rw [if_neg h]
      simp only []
      rw [ih, electOne_live, List.length_cons]
      rw [show j + is.length + 1 = j + (is.length + 1) by omega]

theorem electAll_pos (own : List Nat) (net : Nat) : ∀ (ifs : List Ifc) (rl : List Entry),
    Pos rl → Pos (electAll own net ifs rl).2 := by
  intro ifs
  induction ifs with
  | nil => intro rl h; simpa [electAll] using h
  | cons i is ih =>
    intro rl hp
    simp only [electAll]
    by_cases h : rl = []
    · rw [if_pos h]; exact ih rl hp
    · rw [if_neg h]; exact ih _ (electOne_pos own net i.esk rl true)

theorem electAll_len (own : List Nat) (net : Nat) : ∀ (ifs : List Ifc) (rl : List Entry),
    (electAll own net ifs rl).1.map Ifc.esk = ifs.map Ifc.esk := by
  intro ifs
  induction ifs with
  | nil => intro rl; rfl
  | cons i is ih =>
    intro rl
    simp only [electAll]
    by_cases h : rl = []
    · rw [if_pos h]; simp [ih]
    · rw [if_neg h]; simp [ih]

theorem electAll_act (own : List Nat) (net : Nat) :
    ∀ (ifs : List Ifc) (rl : List Entry) (i : Nat) (f : Ifc), Pos rl →
    (electAll own net ifs rl).1[i]? = some f →
    (f.active = true ↔ ¬ ∃ rid, memLt rid own = true ∧ Live rl f.esk net rid i) := by
  intro ifs
  induction ifs with
  | nil => intro rl i f _ h; simp [electAll] at h
  | cons g is ih =>
    intro rl i f hp h
    simp only [electAll] at h
    by_cases hr : rl = []
    · rw [if_pos hr] at h
      cases i with
      | zero =>
        simp at h
        subst h
        simp [hr, Live]
      | succ i =>
        simp at h
        rw [ih rl i f hp h, hr]
        simp [Live]
    · rw [if_neg hr] at h
      cases i with
      | zero =>
        simp at h
        subst h
        simp only []
        rw [electOne_act]
        constructor
        · rintro ⟨_, hn⟩ ⟨rid, hlt, e, he, h1, h2, h3, h4⟩
          exact hn ⟨e, he, h2, h1, by rw [h3]; exact hlt⟩
        · intro hn
          refine ⟨rfl, ?_⟩
          rintro ⟨e, he, h1, h2, h3⟩
          exact hn ⟨e.rid, h3, e, he, h2, h1, rfl, hp e he⟩
      | succ i =>
        simp at h
        rw [ih _ i f (electOne_pos own net g.esk rl true) h]
        constructor
        · rintro hn ⟨rid, hlt, hl⟩
          exact hn ⟨rid, hlt, (electOne_live own net g.esk f.esk net rid rl true i).2 hl⟩
        · rintro hn ⟨rid, hlt, hl⟩
          exact hn ⟨rid, hlt, (electOne_live own net g.esk f.esk net rid rl true i).1 hl⟩

/-! ### Runs -/

theorem run_append (s : St) : ∀ (es fs : List Ev),
    run s (es ++ fs) = (run s es).bind (fun t => run t fs) := by
  intro es
  induction es generalizing s with
  | nil => intro fs; rfl
  | cons e es ih =>
    intro fs
    simp only [List.cons_append, run]
    cases step s e with
    | none => rfl
    | some t => simp only [Option.bind_some]; exact ih t fs

theorem run_snoc {s t : St} {es : List Ev} {e : Ev} (h : run s (es ++ [e]) = some t) :
    ∃ u, run s es = some u ∧ step u e = some t := by
  rw [run_append] at h
  cases hr : run s es with
  | none => rw [hr] at h; cases h
  | some u =>
    rw [hr] at h
    simp only [Option.bind_some, run] at h
    refine ⟨u, rfl, ?_⟩
    cases hs : step u e with
    | none => rw [hs] at h; cases h
    | some v => rw [hs] at h; simpa [run] using h

theorem update_ifs (s : St) (fam : Bool) (e : Entry) :
    (updateRouterList s fam e).ifs = s.ifs ∧ (updateRouterList s fam e).v6 = s.v6 ∧
    (updateRouterList s fam e).own = s.own ∧ (updateRouterList s fam e).net = s.net ∧
    (updateRouterList s fam e).ready = s.ready := by
  unfold updateRouterList
  split
  · exact ⟨rfl, rfl, rfl, rfl, rfl⟩
  · split <;> exact ⟨rfl, rfl, rfl, rfl, rfl⟩

/-- What never changes after the initialisation. -/
def Frame (s t : St) : Prop :=
  t.v6 = s.v6 ∧ t.own = s.own ∧ t.net = s.net ∧ t.ready = s.ready ∧
  t.ifs.map Ifc.esk = s.ifs.map Ifc.esk

theorem step_frame {s t : St} {e : Ev} (h : step s e = some t) : Frame s t := by
  cases e with
  | recv skfd pkt =>
    simp only [step, doElection] at h
    cases hp : parseHello pkt with
    | none => rw [hp] at h; cases h; exact ⟨rfl, rfl, rfl, rfl, rfl⟩
    | some x =>
      obtain ⟨fam, net, rid⟩ := x
      rw [hp] at h
      simp only [] at h
      by_cases hc : s.ready = false ∧ fam = s.v6
      · rw [if_pos hc] at h; cases h
      · rw [if_neg hc] at h
        cases h
        obtain ⟨a, b, c, d, e⟩ := update_ifs s fam ⟨rid, net, entryTtl, skfd⟩
        exact ⟨b, c, d, e, by rw [a]⟩
  | elect =>
    simp only [step, electTimer] at h
    cases h
    exact ⟨rfl, rfl, rfl, rfl, electAll_len _ _ _ _⟩
  | hello ok =>
    simp only [step, helloTimer] at h
    by_cases hc : (ok.take s.ifs.length).all id = true
    · rw [if_pos hc] at h; cases h; exact ⟨rfl, rfl, rfl, rfl, rfl⟩
    · rw [if_neg hc] at h; cases h

theorem Frame.trans {a b c : St} (h : Frame a b) (g : Frame b c) : Frame a c := by
  obtain ⟨h1, h2, h3, h4, h5⟩ := h
  obtain ⟨g1, g2, g3, g4, g5⟩ := g
  exact ⟨g1.trans h1, g2.trans h2, g3.trans h3, g4.trans h4, g5.trans h5⟩

theorem run_frame {s t : St} {es : List Ev} (h : run s es = some t) : Frame s t := by
  induction es generalizing s with
  | nil => cases h; exact ⟨rfl, rfl, rfl, rfl, rfl⟩
  | cons e es ih =>
    simp only [run] at h
    cases hs : step s e with
    | none => rw [hs] at h; cases h
    | some u =>
      rw [hs] at h
      exact (step_frame hs).trans (ih h)

theorem Frame.len {s t : St} (h : Frame s t) : t.ifs.length = s.ifs.length := by
  have := congrArg List.length h.2.2.2.2
  simpa using this

theorem count_snoc (es : List Ev) (e : Ev) :
    (es ++ [e]).count Ev.elect = es.count Ev.elect + (if e = Ev.elect then 1 else 0) := by
  rw [List.count_append, List.count_singleton]
  by_cases h : e = Ev.elect
  · simp [h]
  · rw [if_neg h, if_neg (by simpa using h)]

theorem heard_snoc {v6 : Bool} {es : List Ev} {e : Ev} {skfd net : Nat} {rid : List Nat}
    {n : Nat} : HeardAgo v6 (es ++ [e]) skfd net rid n ↔
      (n = 0 ∧ ∃ pkt, e = Ev.recv skfd pkt ∧ Announces v6 pkt net rid) ∨
      (∃ m, HeardAgo v6 es skfd net rid m ∧ n = m + (if e = Ev.elect then 1 else 0)) := by
  constructor
  · rintro ⟨pre, post, pkt, he, ha, hc⟩
    rcases List.eq_nil_or_concat post with rfl | ⟨post', x, rfl⟩
    · left
      have := List.append_inj' he rfl
      obtain ⟨_, h2⟩ := this
      simp at h2
      exact ⟨by simpa using hc.symm, pkt, h2, ha⟩
    · right
      have hsplit : es ++ [e] = (pre ++ Ev.recv skfd pkt :: post') ++ [x] := by
        rw [he]; simp
      obtain ⟨h1, h2⟩ := List.append_inj' hsplit rfl
      simp at h2
      subst h2
      refine ⟨post'.count Ev.elect, ⟨pre, post', pkt, h1, ha, rfl⟩, ?_⟩
      rw [← hc, ← count_snoc]
      simp
  · rintro (⟨rfl, pkt, rfl, ha⟩ | ⟨m, ⟨pre, post, pkt, he, ha, hc⟩, hn⟩)
    · exact ⟨es, [], pkt, rfl, ha, rfl⟩
    · refine ⟨pre, post ++ [e], pkt, by rw [he]; simp, ha, ?_⟩
      rw [count_snoc, hc, hn]

/-- Induction from the end of a list. -/
theorem snocInd {α : Type} {P : List α → Prop} (h0 : P [])
    (hs : ∀ l a, P l → P (l ++ [a])) : ∀ l, P l := by
  intro l
  have : ∀ r : List α, P r.reverse := by
    intro r
    induction r with
    | nil => exact h0
    | cons a r ih => rw [List.reverse_cons]; exact hs _ _ ih
  rw [← List.reverse_reverse l]
  exact this _

/-- The router list records exactly what has been heard recently. -/
theorem run_live {s : St} (hr : s.ready = true) (h0 : s.rl = []) (es : List Ev) :
    ∀ t : St, run s es = some t → Pos t.rl ∧
    ∀ skfd net rid j, Live t.rl skfd net rid j ↔
      ∃ n, HeardAgo s.v6 es skfd net rid n ∧ s.ifs.length * n + j < 10 := by
  refine snocInd (P := fun es => ∀ t : St, run s es = some t → Pos t.rl ∧
    ∀ skfd net rid j, Live t.rl skfd net rid j ↔
      ∃ n, HeardAgo s.v6 es skfd net rid n ∧ s.ifs.length * n + j < 10) ?_ ?_ es
  ·
    intro t h
    cases h
    refine ⟨by rw [h0]; intro e he; simp at he, ?_⟩
    intro skfd net rid j
    rw [h0]
    constructor
    · rintro ⟨e, he, _⟩; simp at he
    · rintro ⟨n, ⟨pre, post, pkt, he, _⟩, _⟩; simp at he
  · intro es e ih t h
    obtain ⟨u, hu, hs⟩ := run_snoc h
    obtain ⟨hpos, hlive⟩ := ih u hu
    have hfr := run_frame hu
    cases e with
    | recv sk pkt =>
      simp only [step, doElection] at hs
      have hne : ∀ x, (Ev.recv sk pkt = Ev.elect) ↔ x ∧ False := by intro x; simp
      cases hp : parseHello pkt with
      | none =>
        rw [hp] at hs
        cases hs
        refine ⟨hpos, ?_⟩
        intro skfd net rid j
        rw [hlive]
        constructor
        · rintro ⟨n, hh, hl⟩
          exact ⟨n, heard_snoc.2 (Or.inr ⟨n, hh, by simp⟩), hl⟩
        · rintro ⟨n, hh, hl⟩
          rcases heard_snoc.1 hh with ⟨_, pkt', he, ha⟩ | ⟨m, hh, hn⟩
          · cases he
            rw [parse_iff.2 ha] at hp
            cases hp
          · simp at hn
            subst hn
            exact ⟨n, hh, hl⟩
      | some x =>
        obtain ⟨fam, nt, ri⟩ := x
        rw [hp] at hs
        simp only [] at hs
        rw [if_neg (by rw [hfr.2.2.2.1, hr]; simp)] at hs
        cases hs
        by_cases hf : fam = u.v6
        · subst hf
          refine ⟨?_, ?_⟩
          · intro e he
            have hl := (live_update (s := u) (e := ⟨ri, nt, entryTtl, sk⟩) e.skfd e.net e.rid 0).1
            by_cases hz : 0 < e.ttl
            · exact hz
            · exfalso
              have hcases : e ∈ (refresh ⟨ri, nt, entryTtl, sk⟩ u.rl).1 ∨
                  e = ⟨ri, nt, entryTtl, sk⟩ := by
                unfold updateRouterList at he
                rw [if_neg (by simp)] at he
                by_cases hx : (refresh ⟨ri, nt, entryTtl, sk⟩ u.rl).2 = true
                · rw [if_pos hx] at he; exact Or.inl he
                · rw [if_neg hx] at he
                  rcases List.mem_append.1 he with hm | hm
                  · exact Or.inl hm
                  · exact Or.inr (List.mem_singleton.1 hm)
              rcases hcases with hm | rfl
              · rw [refresh_fst] at hm
                obtain ⟨t', ht', rfl⟩ := List.mem_map.1 hm
                apply hz
                by_cases hsr : sameRouter ⟨ri, nt, entryTtl, sk⟩ t' = true
                · rw [if_pos hsr]; simp [entryTtl]
                · rw [if_neg hsr]; exact hpos t' ht'
              · exact hz (by simp [entryTtl])
          · intro skfd net rid j
            rw [live_update]
            simp only []
            have hann : Announces s.v6 pkt nt ri := by
              rw [← hfr.1]; exact parse_iff.1 hp
            by_cases hk : sk = skfd ∧ nt = net ∧ ri = rid
            · rw [if_pos hk]
              obtain ⟨rfl, rfl, rfl⟩ := hk
              constructor
              · intro hj
                exact ⟨0, heard_snoc.2 (Or.inl ⟨rfl, pkt, rfl, hann⟩), by
                  simpa [entryTtl] using hj⟩
              · rintro ⟨n, _, hl⟩
                show j < 10
                have : 0 ≤ s.ifs.length * n := Nat.zero_le _
                omega
            · rw [if_neg hk, hlive]
              constructor
              · rintro ⟨n, hh, hl⟩
                exact ⟨n, heard_snoc.2 (Or.inr ⟨n, hh, by simp⟩), hl⟩
              · rintro ⟨n, hh, hl⟩
                rcases heard_snoc.1 hh with ⟨_, pkt', he, ha⟩ | ⟨m, hh, hn⟩
                · cases he
                  have := parse_iff.2 ha
                  rw [parse_iff.2 hann] at this
                  cases this
                  exact absurd ⟨rfl, rfl, rfl⟩ hk
                · simp at hn
                  subst hn
                  exact ⟨n, hh, hl⟩
        · have hrl : (updateRouterList u fam ⟨ri, nt, entryTtl, sk⟩).rl = u.rl := by
            unfold updateRouterList
            rw [if_pos hf]
          rw [hrl]
          refine ⟨hpos, ?_⟩
          intro skfd net rid j
          rw [hlive]
          constructor
          · rintro ⟨n, hh, hl⟩
            exact ⟨n, heard_snoc.2 (Or.inr ⟨n, hh, by simp⟩), hl⟩
          · rintro ⟨n, hh, hl⟩
            rcases heard_snoc.1 hh with ⟨_, pkt', he, ha⟩ | ⟨m, hh, hn⟩
            · cases he
              have := parse_iff.2 ha
              rw [hp] at this
              cases this
              exact absurd hfr.1.symm hf
            · simp at hn
              subst hn
              exact ⟨n, hh, hl⟩
    | elect =>
      simp only [step, electTimer] at hs
      cases hs
      refine ⟨electAll_pos _ _ _ _ hpos, ?_⟩
      intro skfd net rid j
      simp only []
      rw [electAll_live, hlive, hfr.len]
      constructor
      · rintro ⟨n, hh, hl⟩
        refine ⟨n + 1, heard_snoc.2 (Or.inr ⟨n, hh, by simp⟩), ?_⟩
        rw [Nat.mul_add]
        omega
      · rintro ⟨n, hh, hl⟩
        rcases heard_snoc.1 hh with ⟨_, pkt', he, _⟩ | ⟨m, hm, hn⟩
        · cases he
        · simp at hn
          subst hn
          rw [Nat.mul_add] at hl
          exact ⟨m, hm, by omega⟩
    | hello ok =>
      simp only [step, helloTimer] at hs
      by_cases hc : (ok.take u.ifs.length).all id = true
      · rw [if_pos hc] at hs
        cases hs
        refine ⟨hpos, ?_⟩
        intro skfd net rid j
        rw [hlive]
        constructor
        · rintro ⟨n, hh, hl⟩
          exact ⟨n, heard_snoc.2 (Or.inr ⟨n, hh, by simp⟩), hl⟩
        · rintro ⟨n, hh, hl⟩
          rcases heard_snoc.1 hh with ⟨_, pkt', he, _⟩ | ⟨m, hh, hn⟩
          · cases he
          · simp at hn
            subst hn
            exact ⟨n, hh, hl⟩
      · rw [if_neg hc] at hs; cases hs

end Verif.MdnsElect
