import Verif.GwEntModel
/-! Helper lemmas about the entry of the gateway tree: the invariant and what single events do. -/
namespace Verif.GwEnt

open BuildMsg (GwInfo readGw isSmartGw isInetGw)

/-- What holds of an entry at any time. -/
structure Inv (v6 : Bool) (e : Ent) : Prop where
  ext : e.info.ext.2 = 0
  live : (e.info.ipv4 || e.info.ipv6) = true → e.cleanup = .none
  notStale : e.cleanup ≠ .stale
  no6 : v6 = false → e.info.ipv6 = false
  timed : v6 = false → (e.cleanup = .none ∧ e.expire ≠ none) ∨ (∃ t, e.cleanup = .due t)

/-- The plain networks stand for the Internet. -/
def PlainOk (v6 : Bool) (l : List ((List Nat × Nat) × Nat)) : Prop := ∀ p ∈ l, isInetGw v6 p.1.1 p.1.2 = true

structure SInv (v6 : Bool) (s : St) : Prop where
  ent : ∀ e, s.ent = some e → Inv v6 e
  plain : PlainOk v6 s.plain

theorem inet4 (a : List Nat) (n : Nat) (h : isInetGw false a n = true) : n = 0 := by
  simp [isInetGw] at h
  exact h.1

theorem take_ext (v6 : Bool) (plen : Nat) (i : GwInfo) : (takeFlags v6 plen i).ext = i.ext := by
  unfold takeFlags
  repeat' split
  all_goals rfl

theorem take_speeds (v6 : Bool) (plen : Nat) (i : GwInfo) :
    (takeFlags v6 plen i).up = i.up ∧ (takeFlags v6 plen i).down = i.down := by
  unfold takeFlags
  repeat' split
  all_goals exact ⟨rfl, rfl⟩

theorem take_flags (v6 : Bool) (plen : Nat) (i : GwInfo)
    (h : ((takeFlags v6 plen i).ipv4 || (takeFlags v6 plen i).ipv6) = true) : (i.ipv4 || i.ipv6) = true := by
  revert h
  unfold takeFlags
  repeat' split
  all_goals (intro h; revert h; cases i.ipv4 <;> cases i.ipv6 <;> simp)

theorem take_no6 (v6 : Bool) (plen : Nat) (i : GwInfo) (h : i.ipv6 = false) : (takeFlags v6 plen i).ipv6 = false := by
  unfold takeFlags
  repeat' split
  all_goals first | exact h | rfl

theorem take_noFlags (v6 : Bool) (plen : Nat) (i : GwInfo) : noFlags (takeFlags v6 plen i) = noFlags i := by
  unfold takeFlags noFlags
  repeat' split
  all_goals rfl

theorem take4 (i : GwInfo) : takeFlags false 0 i = { i with ipv4 := false, nat := false } := by
  unfold takeFlags
  rw [if_pos ⟨rfl, rfl⟩]

theorem read_ext (v6 : Bool) (mask : List Nat) (old : List Nat × Nat) :
    (readGw v6 (Ipcalc.toPrefix mask) mask old).ext = old ∨
    (readGw v6 (Ipcalc.toPrefix mask) mask old).ext = (List.replicate 8 0, 0) := by
  by_cases h : (v6 && Ipcalc.toPrefix mask == 3) = true
  · right
    have h3 : Ipcalc.toPrefix mask = 3 := by
      simp at h; exact h.2
    have hne : (mask == BuildMsg.route6) = false := by
      have : mask ≠ BuildMsg.route6 := by
        rintro rfl
        exact absurd h3 (by decide)
      simpa using this
    simp only [readGw, h, if_true, hne, Bool.and_false, Bool.false_eq_true, if_false]
  · left
    have h' : (v6 && Ipcalc.toPrefix mask == 3) = false := by simpa using h
    simp only [readGw, h', Bool.false_eq_true, if_false]

/-- A deletion that is not immediate never does anything undefined and keeps the invariant. -/
theorem del_later (v6 : Bool) (now : Nat) (e : Ent) (plen : Nat) (h : Inv v6 e)
    (hp : v6 = false → plen = 0 ∨ plen = forced) :
    ∃ e', del v6 now e plen false = some (some e') ∧ Inv v6 e' ∧ e'.seq = e.seq := by
  unfold del
  rw [if_neg (by decide)]
  by_cases hc : e.cleanup = .none ∨ (e.info.ipv4 || e.info.ipv6) = true
  · rw [if_pos hc]
    have hcn : e.cleanup = .none := hc.elim id h.live
    unfold finish
    by_cases hf : plen = forced ∨ ((takeFlags v6 plen e.info).ipv4 || (takeFlags v6 plen e.info).ipv6) = false
    · rw [if_pos hf, if_neg (by decide)]
      rw [if_neg (by show ¬ e.cleanup = Tm.stale; exact h.notStale)]
      refine ⟨_, rfl, ?_, rfl⟩
      constructor
      · show (noFlags (takeFlags v6 plen e.info)).ext.2 = 0
        rw [take_noFlags]; exact h.ext
      · intro hx; cases hx
      · intro hx; cases hx
      · intro _; rfl
      · intro _; exact Or.inr ⟨_, rfl⟩
    · rw [if_neg hf]
      refine ⟨_, rfl, ?_, rfl⟩
      constructor
      · show (takeFlags v6 plen e.info).ext.2 = 0
        rw [take_ext]; exact h.ext
      · intro _; exact hcn
      · exact h.notStale
      · intro hv; exact take_no6 _ _ _ (h.no6 hv)
      · intro hv
        exfalso
        apply hf
        rcases hp hv with hq | hq
        · right
          subst hv
          rw [hq, take4]
          show (false || e.info.ipv6) = false
          rw [h.no6 rfl]; rfl
        · exact Or.inl hq
  · rw [if_neg hc]
    refine ⟨_, rfl, ?_, rfl⟩
    constructor
    · exact h.ext
    · exact h.live
    · exact h.notStale
    · exact h.no6
    · intro hv
      rcases h.timed hv with hx | hx
      · exact absurd (Or.inl hx.1) hc
      · exact Or.inr hx

/-- An immediate forced deletion frees the entry. -/
theorem del_now (v6 : Bool) (now : Nat) (e : Ent) (h : e.cleanup ≠ .stale) :
    del v6 now e forced true = some none := by
  unfold del
  rw [if_pos rfl, if_neg h]
  unfold finish
  rw [if_pos (Or.inl rfl), if_pos rfl]
  rfl

theorem delEnt_ok (v6 : Bool) (now : Nat) (e : Option Ent) (plen : Nat) (h : ∀ x, e = some x → Inv v6 x)
    (hp : v6 = false → plen = 0 ∨ plen = forced) :
    ∃ e', delEnt v6 now e plen false = some e' ∧ (∀ x, e' = some x → Inv v6 x) := by
  cases e with
  | none => exact ⟨none, rfl, fun x hx => by cases hx⟩
  | some e =>
    obtain ⟨e', h1, h2, _⟩ := del_later v6 now e plen (h e rfl) hp
    exact ⟨some e', h1, fun x hx => by cases hx; exact h2⟩

theorem delPlain_ok (v6 : Bool) (now : Nat) (l : List ((List Nat × Nat) × Nat)) (hl : PlainOk v6 l) :
    ∀ e : Option Ent, (∀ x, e = some x → Inv v6 x) →
      ∃ e', delPlain v6 now l e = some e' ∧ (∀ x, e' = some x → Inv v6 x) := by
  induction l with
  | nil => intro e h; exact ⟨e, rfl, h⟩
  | cons p l ih =>
    intro e h
    obtain ⟨e', h1, h2⟩ := delEnt_ok v6 now e p.1.2 h (fun hv => by
      subst hv
      exact Or.inl (inet4 _ _ (hl p (List.mem_cons_self ..))))
    obtain ⟨e'', h3, h4⟩ := ih (fun q hq => hl q (List.mem_cons_of_mem _ hq)) e' h2
    exact ⟨e'', by simp only [delPlain, h1, Option.bind_some, h3], h4⟩

theorem accept_ok (v6 : Bool) (now : Nat) (e : Ent) (mask : List Nat) (seq vtime : Nat) (hext : e.info.ext.2 = 0)
    (hs : e.cleanup ≠ .stale) :
    ∃ e', accept v6 now e mask seq vtime = some e' ∧ (∀ x, e' = some x → Inv v6 x) := by
  unfold accept
  simp only []
  by_cases hz : (readGw v6 (Ipcalc.toPrefix mask) mask e.info.ext).up = 0 ∨
      (readGw v6 (Ipcalc.toPrefix mask) mask e.info.ext).down = 0
  · rw [if_pos hz]
    exact ⟨none, del_now v6 now _ hs, fun x hx => by cases hx⟩
  · rw [if_neg hz, if_neg hs]
    refine ⟨_, rfl, ?_⟩
    intro x hx
    cases hx
    constructor
    · show (readGw v6 (Ipcalc.toPrefix mask) mask e.info.ext).ext.2 = 0
      rcases read_ext v6 mask e.info.ext with hx | hx
      · rw [hx]; exact hext
      · rw [hx]
    · intro _; rfl
    · intro hx; cases hx
    · intro hv; subst hv; rfl
    · intro _; exact Or.inl ⟨rfl, by intro hx; cases hx⟩

theorem update_ok (v6 : Bool) (now : Nat) (e : Option Ent) (mask : List Nat) (seq vtime : Nat)
    (h : ∀ x, e = some x → Inv v6 x) :
    ∃ e', update v6 now e mask seq vtime = some e' ∧ (∀ x, e' = some x → Inv v6 x) := by
  cases e with
  | none => exact accept_ok v6 now blank mask seq vtime rfl (by intro hx; cases hx)
  | some e =>
    unfold update
    simp only []
    by_cases hd : Seqno.diff seq e.seq ≤ 0
    · rw [if_pos hd]; exact ⟨_, rfl, h⟩
    · rw [if_neg hd]
      exact accept_ok v6 now e mask seq vtime (h e rfl).ext (h e rfl).notStale

theorem fireExpire_ok (v6 : Bool) (now : Nat) (e : Option Ent) (h : ∀ x, e = some x → Inv v6 x) :
    ∃ e', fireExpire v6 now e = some e' ∧ (∀ x, e' = some x → Inv v6 x) := by
  cases e with
  | none => exact ⟨none, rfl, h⟩
  | some e =>
    unfold fireExpire
    simp only []
    cases hx : e.expire with
    | none => simp only []; exact ⟨_, rfl, h⟩
    | some t =>
      simp only []
      by_cases ht : t ≤ now
      · rw [if_pos ht]
        obtain ⟨e', h1, h2, _⟩ := del_later v6 now e e.info.ext.2 (h e rfl) (fun _ => Or.inl (h e rfl).ext)
        exact ⟨some e', h1, fun x hx => by cases hx; exact h2⟩
      · rw [if_neg ht]; exact ⟨_, rfl, h⟩

theorem fireCleanup_ok (v6 : Bool) (now : Nat) (e : Option Ent) (h : ∀ x, e = some x → Inv v6 x) :
    ∀ x, fireCleanup now e = some x → e = some x := by
  intro x hx
  cases e with
  | none => cases hx
  | some e =>
    revert hx
    unfold fireCleanup
    simp only []
    cases hc : e.cleanup with
    | none => simp only []; intro hx; exact hx
    | stale => simp only []; intro hx; exact hx
    | due t =>
      simp only []
      by_cases ht : t ≤ now
      · rw [if_pos ht]
        have hl : (e.info.ipv4 || e.info.ipv6) = false := by
          cases hh : (e.info.ipv4 || e.info.ipv6) with
          | false => rfl
          | true => have := (h e rfl).live hh; rw [hc] at this; cases this
        unfold cleanupHandler
        rw [hl, if_neg (by decide)]
        intro hx; cases hx
      · rw [if_neg ht]; intro hx; exact hx

theorem step_ok (v6 : Bool) (s : St) (ev : Ev) (h : SInv v6 s) : ∃ s', step v6 s ev = some s' ∧ SInv v6 s' := by
  cases ev with
  | net addr mask seq vtime =>
    unfold step
    simp only []
    by_cases hg : isSmartGw v6 addr (Ipcalc.toPrefix mask) mask = true
    · rw [if_pos hg]
      obtain ⟨e', h1, h2⟩ := update_ok v6 s.now s.ent mask seq vtime h.ent
      rw [h1]
      exact ⟨_, rfl, ⟨h2, h.plain⟩⟩
    · rw [if_neg hg]
      by_cases hi : isInetGw v6 addr (Ipcalc.toPrefix mask) = true
      · rw [if_pos hi]
        refine ⟨_, rfl, ⟨h.ent, ?_⟩⟩
        intro p hp
        rcases List.mem_cons.1 hp with hp | hp
        · subst hp; exact hi
        · exact h.plain p (List.mem_filter.1 hp).1
      · rw [if_neg hi]
        exact ⟨s, rfl, h⟩
  | lost =>
    obtain ⟨e', h1, h2⟩ := delEnt_ok v6 s.now s.ent forced h.ent (fun _ => Or.inr rfl)
    exact ⟨{ s with ent := e' }, by simp only [step, h1, Option.map_some], ⟨h2, h.plain⟩⟩
  | tick =>
    unfold step tick
    simp only []
    obtain ⟨e1, h1, h2⟩ := fireExpire_ok v6 (s.now + 1) s.ent h.ent
    rw [h1]
    have h3 := fireCleanup_ok v6 (s.now + 1) e1 h2
    obtain ⟨e2, h4, h5⟩ := delPlain_ok v6 (s.now + 1) (s.plain.filter (fun p => p.2 ≤ s.now + 1))
      (fun p hp => h.plain p (List.mem_filter.1 hp).1) (fireCleanup (s.now + 1) e1)
      (fun x hx => h2 x (h3 x hx))
    simp only [Option.bind_some]
    rw [h4]
    exact ⟨_, rfl, ⟨h5, fun p hp => h.plain p (List.mem_filter.1 hp).1⟩⟩

theorem run_ok (v6 : Bool) (evs : List Ev) : ∀ s, SInv v6 s → ∃ s', run v6 evs s = some s' ∧ SInv v6 s' := by
  induction evs with
  | nil => intro s h; exact ⟨s, rfl, h⟩
  | cons ev l ih =>
    intro s h
    obtain ⟨s1, h1, h2⟩ := step_ok v6 s ev h
    obtain ⟨s2, h3, h4⟩ := ih s1 h2
    exact ⟨s2, by simp only [run, h1, Option.bind_some, h3], h4⟩

theorem init_ok (v6 : Bool) : SInv v6 init :=
  ⟨fun e h => (by cases h), fun p h => (by cases h)⟩

theorem run_inv (v6 : Bool) (evs : List Ev) (s : St) (h : run v6 evs init = some s) : SInv v6 s := by
  obtain ⟨s', h1, h2⟩ := run_ok v6 evs init (init_ok v6)
  rw [h] at h1
  cases h1
  exact h2

theorem run_append (v6 : Bool) (a b : List Ev) : ∀ s, run v6 (a ++ b) s = (run v6 a s).bind (run v6 b) := by
  induction a with
  | nil => intro s; rfl
  | cons ev l ih =>
    intro s
    show (step v6 s ev).bind (run v6 (l ++ b)) = ((step v6 s ev).bind (run v6 l)).bind (run v6 b)
    cases step v6 s ev with
    | none => rfl
    | some s' => exact ih s'

theorem del4_off (now : Nat) (e e' : Ent) (h : del false now e 0 false = some (some e')) : e'.info.ipv4 = false := by
  revert h
  unfold del
  rw [if_neg (by decide)]
  by_cases hc : e.cleanup = .none ∨ (e.info.ipv4 || e.info.ipv6) = true
  · rw [if_pos hc]
    unfold finish
    by_cases hf : 0 = forced ∨ ((takeFlags false 0 e.info).ipv4 || (takeFlags false 0 e.info).ipv6) = false
    · rw [if_pos hf, if_neg (by decide)]
      by_cases hs : e.cleanup = .stale
      · rw [if_pos hs]; intro h; cases h
      · rw [if_neg hs]; intro h; cases h; rfl
    · rw [if_neg hf]
      intro h
      cases h
      show (takeFlags false 0 e.info).ipv4 = false
      rw [take4]
  · rw [if_neg hc]
    intro h
    cases h
    show e.info.ipv4 = false
    cases hx : e.info.ipv4 with
    | false => rfl
    | true => exact absurd (Or.inr (by rw [hx]; rfl)) hc

theorem delPlain4 (now : Nat) (l : List ((List Nat × Nat) × Nat)) (hl : PlainOk false l) (x : Ent)
    (hx : x.info.ipv4 = true) : ∀ e : Option Ent, delPlain false now l e = some (some x) → l = [] ∧ e = some x := by
  induction l with
  | nil =>
    intro e h
    cases h
    exact ⟨rfl, rfl⟩
  | cons p l ih =>
    intro e h
    exfalso
    have hp : p.1.2 = 0 := inet4 _ _ (hl p (List.mem_cons_self ..))
    simp only [delPlain, hp] at h
    cases hd : delEnt false now e 0 false with
    | none => rw [hd] at h; cases h
    | some e1 =>
      rw [hd] at h
      have h1 := (ih (fun q hq => hl q (List.mem_cons_of_mem _ hq)) e1 h).2
      subst h1
      cases e with
      | none => cases hd
      | some e =>
        have := del4_off now e x hd
        rw [hx] at this
        cases this

/-- What a deletion that is not immediate does to the cleanup timer. -/
theorem del_cleanup (v6 : Bool) (now : Nat) (e e' : Ent) (plen : Nat) (h : del v6 now e plen false = some (some e')) :
    e'.cleanup = e.cleanup ∨ e'.cleanup = .due (now + cleanupInterval) := by
  revert h
  unfold del
  rw [if_neg (by decide)]
  by_cases hc : e.cleanup = .none ∨ (e.info.ipv4 || e.info.ipv6) = true
  · rw [if_pos hc]
    unfold finish
    by_cases hf : plen = forced ∨ ((takeFlags v6 plen e.info).ipv4 || (takeFlags v6 plen e.info).ipv6) = false
    · rw [if_pos hf, if_neg (by decide)]
      by_cases hs : e.cleanup = .stale
      · rw [if_pos hs]; intro h; cases h
      · rw [if_neg hs]; intro h; cases h; exact Or.inr rfl
    · rw [if_neg hf]
      intro h
      cases h
      exact Or.inl rfl
  · rw [if_neg hc]
    intro h
    cases h
    exact Or.inl rfl

/-- The entry is there, with its number, and is not cleaned up before `u`. -/
structure Keeps (v6 : Bool) (seq u : Nat) (e : Ent) : Prop where
  inv : Inv v6 e
  num : e.seq = seq
  late : ∀ t, e.cleanup = .due t → u ≤ t

theorem keeps_del (v6 : Bool) (now seq u : Nat) (e : Ent) (plen : Nat) (h : Keeps v6 seq u e) (hu : u ≤ now + 30000)
    (hp : v6 = false → plen = 0 ∨ plen = forced) :
    ∃ e', del v6 now e plen false = some (some e') ∧ Keeps v6 seq u e' := by
  obtain ⟨e', h1, h2, h3⟩ := del_later v6 now e plen h.inv hp
  refine ⟨e', h1, h2, by rw [h3, h.num], ?_⟩
  intro t ht
  rcases del_cleanup v6 now e e' plen h1 with hx | hx
  · rw [hx] at ht; exact h.late t ht
  · rw [hx] at ht
    cases ht
    exact hu

theorem keeps_plain (v6 : Bool) (now seq u : Nat) (hu : u ≤ now + 30000) (l : List ((List Nat × Nat) × Nat))
    (hl : PlainOk v6 l) : ∀ e : Ent, Keeps v6 seq u e →
      ∃ e', delPlain v6 now l (some e) = some (some e') ∧ Keeps v6 seq u e' := by
  induction l with
  | nil => intro e h; exact ⟨e, rfl, h⟩
  | cons p l ih =>
    intro e h
    obtain ⟨e1, h1, h2⟩ := keeps_del v6 now seq u e p.1.2 h hu (fun hv => by
      subst hv
      exact Or.inl (inet4 _ _ (hl p (List.mem_cons_self ..))))
    obtain ⟨e2, h3, h4⟩ := ih (fun q hq => hl q (List.mem_cons_of_mem _ hq)) e1 h2
    exact ⟨e2, by simp only [delPlain, delEnt, h1, Option.bind_some, h3], h4⟩

theorem keeps_tick (v6 : Bool) (s : St) (seq u : Nat) (e : Ent) (hE : s.ent = some e) (hpl : PlainOk v6 s.plain)
    (h : Keeps v6 seq u e) (hu : u ≤ s.now + 1 + 30000) (hn : s.now + 1 < u) :
    ∃ s' e', step v6 s .tick = some s' ∧ s'.ent = some e' ∧ Keeps v6 seq u e' ∧ s'.now = s.now + 1 := by
  have hex : ∃ e1, fireExpire v6 (s.now + 1) (some e) = some (some e1) ∧ Keeps v6 seq u e1 := by
    unfold fireExpire
    simp only []
    cases hx : e.expire with
    | none => exact ⟨e, rfl, h⟩
    | some t =>
      simp only []
      by_cases ht : t ≤ s.now + 1
      · rw [if_pos ht]
        exact keeps_del v6 (s.now + 1) seq u e e.info.ext.2 h hu (fun _ => Or.inl h.inv.ext)
      · rw [if_neg ht]; exact ⟨e, rfl, h⟩
  obtain ⟨e1, h1, h2⟩ := hex
  have hcl : fireCleanup (s.now + 1) (some e1) = some e1 := by
    unfold fireCleanup
    simp only []
    cases hc : e1.cleanup with
    | none => rfl
    | stale => rfl
    | due t =>
      simp only []
      have := h2.late t hc
      rw [if_neg (by omega)]
  obtain ⟨e2, h3, h4⟩ := keeps_plain v6 (s.now + 1) seq u hu (s.plain.filter (fun p => p.2 ≤ s.now + 1))
    (fun p hp => hpl p (List.mem_filter.1 hp).1) e1 h2
  refine ⟨⟨s.now + 1, some e2, s.plain.filter (fun p => ¬ p.2 ≤ s.now + 1)⟩, e2, ?_, rfl, h4, rfl⟩
  unfold step tick
  simp only []
  rw [hE, h1]
  simp only [Option.bind_some]
  rw [hcl, h3]
  rfl

end Verif.GwEnt
