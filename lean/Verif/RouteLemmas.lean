import Verif.RouteModel
import Mathlib.Data.List.Nodup

/- Helper lemmas about the best route and the update. -/
namespace Verif.Route

/-! ### best route -/

/-- The order behind `olsr_cmp_rtp`. -/
def Lt (c : Cfg) (g : Option (Dst × Nat)) (d : Dst) (p q : Path) : Prop :=
  adjusted c g d p < adjusted c g d q ∨ (adjusted c g d p = adjusted c g d q ∧
    (p.metric.hops < q.metric.hops ∨ (p.metric.hops = q.metric.hops ∧ p.orig < q.orig)))

theorem cmpRtp_iff (c : Cfg) (g : Option (Dst × Nat)) (d : Dst) (p q : Path) :
    cmpRtp c g d p q = true ↔ Lt c g d p q := by
  unfold cmpRtp Lt
  split
  · simp [*]
  · split
    · simp only [Bool.false_eq_true, false_iff]; omega
    · split
      · simp only [true_iff]; omega
      · split
        · simp only [Bool.false_eq_true, false_iff]; omega
        · split
          · simp only [true_iff]; omega
          · simp only [Bool.false_eq_true, false_iff]; omega

theorem fold_best (c : Cfg) (g : Option (Dst × Nat)) (d : Dst) (l : List Path) : ∀ p,
    (l.foldl (fun b q => if cmpRtp c g d q b then q else b) p) ∈ p :: l ∧
    ∀ a ∈ p :: l, ¬ Lt c g d a (l.foldl (fun b q => if cmpRtp c g d q b then q else b) p) := by
  induction l with
  | nil =>
    intro p
    simp only [List.foldl_nil, List.mem_singleton]
    refine ⟨trivial, fun a ha => ?_⟩
    rw [ha]
    unfold Lt
    omega
  | cons q l ih =>
    intro p
    rw [List.foldl_cons]
    by_cases h : cmpRtp c g d q p = true
    · rw [if_pos h]
      obtain ⟨h1, h2⟩ := ih q
      refine ⟨List.mem_cons_of_mem _ h1, fun a ha => ?_⟩
      rcases List.mem_cons.1 ha with e | hm
      · have h3 := h2 q List.mem_cons_self
        rw [cmpRtp_iff] at h
        rw [e]
        generalize l.foldl (fun b q => if cmpRtp c g d q b then q else b) q = b at h3
        unfold Lt at *
        omega
      · exact h2 a hm
    · rw [if_neg h]
      obtain ⟨h1, h2⟩ := ih p
      refine ⟨?_, fun a ha => ?_⟩
      · rcases List.mem_cons.1 h1 with e | hm
        · rw [e]; exact List.mem_cons_self
        · exact List.mem_cons_of_mem _ (List.mem_cons_of_mem _ hm)
      · rcases List.mem_cons.1 ha with e | hm
        · exact h2 a (e ▸ List.mem_cons_self)
        · rcases List.mem_cons.1 hm with e | hm'
          · have h3 := h2 p List.mem_cons_self
            rw [cmpRtp_iff] at h
            rw [e]
            generalize l.foldl (fun b q => if cmpRtp c g d q b then q else b) p = b at h3
            unfold Lt at *
            omega
          · exact h2 a (List.mem_cons_of_mem _ hm')

theorem rtBest_spec (c : Cfg) (g : Option (Dst × Nat)) (d : Dst) (l : List Path)
    (hn : (l.map (·.orig)).Nodup) (b : Path) (h : rtBest c g d l = some b) :
    b ∈ l ∧ ∀ a ∈ l, a ≠ b → Lt c g d b a := by
  cases l with
  | nil => cases h
  | cons p l =>
    simp only [rtBest, Option.some.injEq] at h
    obtain ⟨h1, h2⟩ := fold_best c g d l p
    rw [h] at h1 h2
    refine ⟨h1, fun a ha hne => ?_⟩
    have h3 := h2 a ha
    have h4 : a.orig ≠ b.orig := by
      intro e
      exact hne (List.inj_on_of_nodup_map hn ha h1 e)
    unfold Lt at *
    omega

theorem rtBest_none (c : Cfg) (g : Option (Dst × Nat)) (d : Dst) (l : List Path) :
    rtBest c g d l = none ↔ l = [] := by
  cases l <;> simp [rtBest]

/-! ### the invariant -/

/-- The kernel holds exactly the route of the entry. -/
def Holds (k : Dst → Nat → Option Nh) (d : Dst) (m : Nat) (nh : Nh) : Prop :=
  ∀ m', k d m' = if m' = m then some nh else none

def Empty (k : Dst → Nat → Option Nh) (d : Dst) : Prop := ∀ m, k d m = none

structure Inv (c : Cfg) (s : St) : Prop where
  nodup : s.order.Nodup
  mem : ∀ d, d ∈ s.order ↔ ∃ e, s.ent d = some e
  gone : ∀ d, s.ent d = none → Empty s.kern d
  inst : ∀ d e, s.ent d = some e → -1 < e.nh.iif → Holds s.kern d (fibMetric c d e.metric) e.nh
  notyet : ∀ d e, s.ent d = some e → ¬ -1 < e.nh.iif → Empty s.kern d
  paths : ∀ d e, s.ent d = some e → (e.paths.map (·.orig)).Nodup
  gwlen : ∀ d o, s.inetgw = some (d, o) → d.len = 0

/-- Between calculations every entry is installed and every path current. -/
structure Rest (c : Cfg) (s : St) : Prop extends Inv c s where
  up : ∀ d e, s.ent d = some e → -1 < e.nh.iif
  cur : ∀ d e p, s.ent d = some e → p ∈ e.paths → p.ver = s.ver
  ver : s.ver < 4294967296

theorem setEnt_same (f : Dst → Option Entry) (d : Dst) (e : Option Entry) : setEnt f d e d = e := by
  simp [setEnt]

theorem setEnt_other (f : Dst → Option Entry) (d x : Dst) (e : Option Entry) (h : x ≠ d) :
    setEnt f d e x = f x := by simp [setEnt, h]

theorem setKern_other (k : Dst → Nat → Option Nh) (d x : Dst) (m y : Nat) (v : Option Nh) (h : x ≠ d) :
    setKern k d m v x y = k x y := by simp [setKern, h]

theorem setKern_same (k : Dst → Nat → Option Nh) (d : Dst) (m y : Nat) (v : Option Nh) :
    setKern k d m v d y = if y = m then v else k d y := by simp [setKern]

theorem holds_del (k : Dst → Nat → Option Nh) (d : Dst) (m : Nat) (nh : Nh) (h : Holds k d m nh) :
    Empty (setKern k d m none) d := by
  intro y
  rw [setKern_same]
  split
  · rfl
  · rw [h y, if_neg]
    assumption

theorem empty_add (k : Dst → Nat → Option Nh) (d : Dst) (m : Nat) (nh : Nh) (h : Empty k d) :
    Holds (setKern k d m (some nh)) d m nh := by
  intro y
  rw [setKern_same]
  split
  · rfl
  · exact h y

theorem holds_add (k : Dst → Nat → Option Nh) (d : Dst) (m : Nat) (nh nh' : Nh) (h : Holds k d m nh) :
    Holds (setKern k d m (some nh')) d m nh' := by
  intro y
  rw [setKern_same]
  split
  · rfl
  · rw [h y, if_neg]
    assumption

/-! ### announcing -/

/-- Which current paths an entry has. -/
def Has (s : St) (d : Dst) (p : Path) : Prop :=
  ∃ e, s.ent d = some e ∧ p ∈ e.paths ∧ p.ver = s.ver

/-- An announcement as the calculation makes them. -/
structure Ann.Ok (c : Cfg) (a : Ann) : Prop where
  cost : a.metric.cost < 4294967295
  len : a.dst.len ≤ c.maxplen
  iif : -1 < a.nh.iif

/-- What announcing leaves alone, and what happens to an entry. -/
structure AnnFrame (s t : St) : Prop where
  kern : t.kern = s.kern
  log : t.log = s.log
  inetgw : t.inetgw = s.inetgw
  ver : t.ver = s.ver
  old : ∀ d e, s.ent d = some e → ∃ e', t.ent d = some e' ∧ e'.nh = e.nh ∧ e'.metric = e.metric
  new : ∀ d e', s.ent d = none → t.ent d = some e' → e'.nh = ⟨0, -1⟩ ∧ e'.metric = ⟨0, 0⟩

theorem AnnFrame.refl (s : St) : AnnFrame s s :=
  ⟨rfl, rfl, rfl, rfl, fun _ e h => ⟨e, h, rfl, rfl⟩, fun d e' h h' => by rw [h] at h'; cases h'⟩

theorem AnnFrame.trans {s t u : St} (h : AnnFrame s t) (h' : AnnFrame t u) : AnnFrame s u := by
  refine ⟨h'.kern.trans h.kern, h'.log.trans h.log, h'.inetgw.trans h.inetgw, h'.ver.trans h.ver, ?_, ?_⟩
  · intro d e he
    obtain ⟨e1, h1, h2, h3⟩ := h.old d e he
    obtain ⟨e2, h4, h5, h6⟩ := h'.old d e1 h1
    exact ⟨e2, h4, h5.trans h2, h6.trans h3⟩
  · intro d e' hs hu
    cases ht : t.ent d with
    | none => exact h'.new d e' ht hu
    | some e1 =>
      obtain ⟨e2, h4, h5, h6⟩ := h'.old d e1 ht
      rw [hu] at h4
      injection h4 with h4
      obtain ⟨h7, h8⟩ := h.new d e1 hs ht
      rw [h4]
      exact ⟨h5.trans h7, h6.trans h8⟩

theorem map_orig_update (l : List Path) (o : Nat) (x : Path) (hx : x.orig = o) :
    (l.map fun p => if p.orig = o then x else p).map (·.orig) = l.map (·.orig) := by
  rw [List.map_map]
  apply List.map_congr_left
  intro p _
  simp only [Function.comp]
  split
  · rename_i h; rw [hx, h]
  · rfl

theorem announce_step (c : Cfg) (s : St) (a : Ann) (ha : a.Ok c) (h : Inv c s) :
    AnnFrame s (announce c s a) ∧ Inv c (announce c s a) ∧
    ∀ d p, Has (announce c s a) d p ↔ (d = a.dst ∧ p = a.path s.ver) ∨
      (Has s d p ∧ ¬ (d = a.dst ∧ p.orig = a.orig)) := by
  have hv : ¬ (4294967295 ≤ a.metric.cost ∨ c.maxplen < a.dst.len) := by
    have := ha.cost
    have := ha.len
    omega
  unfold announce
  cases he : s.ent a.dst with
  | none =>
    simp only [if_neg hv]
    refine ⟨⟨rfl, rfl, rfl, rfl, ?_, ?_⟩, ⟨?_, ?_, ?_, ?_, ?_, ?_, h.gwlen⟩, ?_⟩
    · intro d e hd
      have hne : d ≠ a.dst := fun e' => by rw [e', he] at hd; cases hd
      exact ⟨e, by simp only [setEnt_other _ _ _ _ hne, hd], rfl, rfl⟩
    · intro d e' hd hd'
      by_cases e : d = a.dst
      · rw [e] at hd'
        simp only [setEnt_same, Option.some.injEq] at hd'
        rw [← hd']
        exact ⟨rfl, rfl⟩
      · simp only [setEnt_other _ _ _ _ e] at hd'
        rw [hd] at hd'
        cases hd'
    · rw [List.nodup_append]
      refine ⟨h.nodup, by simp, fun x hx y hy e => ?_⟩
      rw [List.mem_singleton] at hy
      obtain ⟨e', he'⟩ := (h.mem x).1 hx
      rw [e, hy, he] at he'
      cases he'
    · intro d
      simp only [List.mem_append, List.mem_singleton]
      by_cases e : d = a.dst
      · rw [e]
        simp [setEnt_same]
      · simp only [setEnt_other _ _ _ _ e, e, or_false]
        exact h.mem d
    · intro d hd
      by_cases e : d = a.dst
      · rw [e] at hd
        simp only [setEnt_same] at hd
        cases hd
      · simp only [setEnt_other _ _ _ _ e] at hd
        exact h.gone d hd
    · intro d e' hd hi
      by_cases e : d = a.dst
      · rw [e] at hd
        simp only [setEnt_same, Option.some.injEq] at hd
        rw [← hd] at hi
        simp [fresh] at hi
      · simp only [setEnt_other _ _ _ _ e] at hd
        exact h.inst d e' hd hi
    · intro d e' hd hi
      by_cases e : d = a.dst
      · rw [e]
        exact h.gone _ he
      · simp only [setEnt_other _ _ _ _ e] at hd
        exact h.notyet d e' hd hi
    · intro d e' hd
      by_cases e : d = a.dst
      · rw [e] at hd
        simp only [setEnt_same, Option.some.injEq] at hd
        rw [← hd]
        simp
      · simp only [setEnt_other _ _ _ _ e] at hd
        exact h.paths d e' hd
    · intro d p
      unfold Has
      by_cases e : d = a.dst
      · subst e
        simp only [setEnt_same, he]
        constructor
        · rintro ⟨e', h1, h2, h3⟩
          injection h1 with h1
          rw [← h1] at h2
          simp only [List.mem_singleton] at h2
          exact Or.inl ⟨trivial, h2⟩
        · rintro (⟨_, h1⟩ | ⟨⟨e', h1, _⟩, _⟩)
          · exact ⟨_, rfl, by simp [h1], by rw [h1]; rfl⟩
          · cases h1
      · simp only [setEnt_other _ _ _ _ e]
        constructor
        · intro h'
          exact Or.inr ⟨h', fun h2 => e h2.1⟩
        · rintro (⟨h1, _⟩ | ⟨h1, _⟩)
          · exact absurd h1 e
          · exact h1
  | some e =>
    simp only
    -- both branches only replace the paths
    have gen : ∀ l : List Path, (l.map (·.orig)).Nodup →
        (∀ p, (p ∈ l ∧ p.ver = s.ver) ↔ (p = a.path s.ver ∨ ((p ∈ e.paths ∧ p.ver = s.ver) ∧ p.orig ≠ a.orig))) →
        AnnFrame s { s with ent := setEnt s.ent a.dst (some { e with paths := l }) } ∧
        Inv c { s with ent := setEnt s.ent a.dst (some { e with paths := l }) } ∧
        ∀ d p, Has { s with ent := setEnt s.ent a.dst (some { e with paths := l }) } d p ↔
          (d = a.dst ∧ p = a.path s.ver) ∨ (Has s d p ∧ ¬ (d = a.dst ∧ p.orig = a.orig)) := by
      intro l hn hl
      have hent : ∀ d e', setEnt s.ent a.dst (some { e with paths := l }) d = some e' →
          ∃ e0, s.ent d = some e0 ∧ e'.nh = e0.nh ∧ e'.metric = e0.metric := by
        intro d e' hd
        by_cases e1 : d = a.dst
        · rw [e1, setEnt_same] at hd
          injection hd with hd
          rw [← hd, e1]
          exact ⟨e, he, rfl, rfl⟩
        · rw [setEnt_other _ _ _ _ e1] at hd
          exact ⟨e', hd, rfl, rfl⟩
      refine ⟨⟨rfl, rfl, rfl, rfl, ?_, ?_⟩, ⟨h.nodup, ?_, ?_, ?_, ?_, ?_, h.gwlen⟩, ?_⟩
      · intro d e0 hd
        by_cases e1 : d = a.dst
        · rw [e1, he] at hd
          injection hd with hd
          rw [e1, ← hd]
          exact ⟨{ e with paths := l }, setEnt_same _ _ _, rfl, rfl⟩
        · exact ⟨e0, by simp only [setEnt_other _ _ _ _ e1, hd], rfl, rfl⟩
      · intro d e' hd hd'
        obtain ⟨e0, h1, _⟩ := hent d e' hd'
        rw [hd] at h1
        cases h1
      · intro d
        rw [show d ∈ s.order ↔ _ from h.mem d]
        by_cases e1 : d = a.dst
        · rw [e1]
          simp [he, setEnt_same]
        · simp only [setEnt_other _ _ _ _ e1]
      · intro d hd
        by_cases e1 : d = a.dst
        · rw [e1] at hd
          simp only [setEnt_same] at hd
          cases hd
        · simp only [setEnt_other _ _ _ _ e1] at hd
          exact h.gone d hd
      · intro d e' hd hi
        obtain ⟨e0, h1, h2, h3⟩ := hent d e' hd
        rw [h2] at hi ⊢
        rw [h3]
        exact h.inst d e0 h1 hi
      · intro d e' hd hi
        obtain ⟨e0, h1, h2, h3⟩ := hent d e' hd
        rw [h2] at hi
        exact h.notyet d e0 h1 hi
      · intro d e' hd
        by_cases e1 : d = a.dst
        · rw [e1] at hd
          simp only [setEnt_same, Option.some.injEq] at hd
          rw [← hd]
          exact hn
        · simp only [setEnt_other _ _ _ _ e1] at hd
          exact h.paths d e' hd
      · intro d p
        unfold Has
        by_cases e1 : d = a.dst
        · subst e1
          simp only [setEnt_same, he, Option.some.injEq, exists_eq_left', true_and]
          exact hl p
        · simp only [setEnt_other _ _ _ _ e1]
          constructor
          · intro h'
            exact Or.inr ⟨h', fun h2 => e1 h2.1⟩
          · rintro (⟨h1, _⟩ | ⟨h1, _⟩)
            · exact absurd h1 e1
            · exact h1
    by_cases hany : (e.paths.any fun p => p.orig == a.orig) = true
    · rw [if_pos hany]
      apply gen
      · rw [map_orig_update e.paths a.orig (a.path s.ver) rfl]
        exact h.paths _ _ he
      · intro p
        simp only [List.any_eq_true, beq_iff_eq] at hany
        obtain ⟨q, hq, hqo⟩ := hany
        simp only [List.mem_map]
        constructor
        · rintro ⟨⟨r, hr, hrp⟩, hver⟩
          by_cases e1 : r.orig = a.orig
          · rw [if_pos e1] at hrp
            exact Or.inl hrp.symm
          · rw [if_neg e1] at hrp
            rw [← hrp] at hver ⊢
            exact Or.inr ⟨⟨hr, hver⟩, e1⟩
        · rintro (h1 | ⟨⟨h1, h2⟩, h3⟩)
          · exact ⟨⟨q, hq, by rw [if_pos hqo, h1]⟩, by rw [h1]; rfl⟩
          · exact ⟨⟨p, h1, if_neg h3⟩, h2⟩
    · rw [if_neg hany, if_neg hv]
      have hno : ∀ p ∈ e.paths, p.orig ≠ a.orig := by
        intro p hp e1
        exact hany (List.any_eq_true.2 ⟨p, hp, by simpa using e1⟩)
      apply gen
      · rw [List.map_append, List.nodup_append]
        refine ⟨h.paths _ _ he, by simp, fun x hx y hy e1 => ?_⟩
        obtain ⟨p, hp, hpx⟩ := List.mem_map.1 hx
        simp only [List.map_cons, List.map_nil, List.mem_singleton] at hy
        apply hno p hp
        rw [hpx, e1, hy]
        rfl
      · intro p
        rw [List.mem_append, List.mem_singleton]
        constructor
        · rintro ⟨h1 | h1, h2⟩
          · exact Or.inr ⟨⟨h1, h2⟩, hno p h1⟩
          · exact Or.inl h1
        · rintro (h1 | ⟨⟨h1, h2⟩, _⟩)
          · exact ⟨Or.inr h1, by rw [h1]; rfl⟩
          · exact ⟨Or.inl h1, h2⟩

theorem announce_fold (c : Cfg) (l : List Ann) : ∀ s : St, (∀ a ∈ l, a.Ok c) →
    (l.map fun a => (a.dst, a.orig)).Nodup → Inv c s →
    (∀ d p a, Has s d p → a ∈ l → ¬ (d = a.dst ∧ p.orig = a.orig)) →
    AnnFrame s (l.foldl (announce c) s) ∧ Inv c (l.foldl (announce c) s) ∧
    ∀ d p, Has (l.foldl (announce c) s) d p ↔ (∃ a ∈ l, d = a.dst ∧ p = a.path s.ver) ∨ Has s d p := by
  induction l with
  | nil => exact fun s _ _ h _ => ⟨AnnFrame.refl s, h, by simp⟩
  | cons a l ih =>
    intro s hok hn h hd
    rw [List.map_cons, List.nodup_cons] at hn
    obtain ⟨f1, i1, h1⟩ := announce_step c s a (hok a List.mem_cons_self) h
    have hd' : ∀ d p b, Has (announce c s a) d p → b ∈ l → ¬ (d = b.dst ∧ p.orig = b.orig) := by
      intro d p b hp hb ⟨e1, e2⟩
      rcases (h1 d p).1 hp with ⟨e3, e4⟩ | ⟨h3, _⟩
      · apply hn.1
        refine List.mem_map.2 ⟨b, hb, ?_⟩
        rw [← e1, ← e2, e3, e4]
        rfl
      · exact hd d p b h3 (List.mem_cons_of_mem _ hb) ⟨e1, e2⟩
    obtain ⟨f2, i2, h2⟩ := ih (announce c s a) (fun b hb => hok b (List.mem_cons_of_mem _ hb)) hn.2 i1 hd'
    rw [List.foldl_cons]
    refine ⟨f1.trans f2, i2, fun d p => ?_⟩
    rw [h2, h1, f1.ver]
    constructor
    · rintro (⟨b, hb, e1, e2⟩ | ⟨e1, e2⟩ | ⟨h3, _⟩)
      · exact Or.inl ⟨b, List.mem_cons_of_mem _ hb, e1, e2⟩
      · exact Or.inl ⟨a, List.mem_cons_self, e1, e2⟩
      · exact Or.inr h3
    · rintro (⟨b, hb, e1, e2⟩ | h3)
      · rcases List.mem_cons.1 hb with e | hm
        · exact Or.inr (Or.inl ⟨by rw [e1, e], by rw [e2, e]⟩)
        · exact Or.inl ⟨b, hm, e1, e2⟩
      · exact Or.inr (Or.inr ⟨h3, hd d p a h3 List.mem_cons_self⟩)

/-! ### the update, seen from one destination -/

/-- The operations of one destination. -/
def logd (s : St) (d : Dst) : List Op := s.log.filter fun o => decide (o.dst = d)

def queued (q : List (Dst × Path)) (d : Dst) : List (Dst × Path) := q.filter fun x => decide (x.1 = d)

structure Away (d : Dst) (s t : St) : Prop where
  ent : t.ent d = s.ent d
  kern : ∀ m, t.kern d m = s.kern d m
  log : logd t d = logd s d
  order : d ∈ t.order ↔ d ∈ s.order
  ver : t.ver = s.ver

theorem Away.refl (d : Dst) (s : St) : Away d s s := ⟨rfl, fun _ => rfl, rfl, Iff.rfl, rfl⟩

theorem Away.trans {d : Dst} {s t u : St} (h : Away d s t) (h' : Away d t u) : Away d s u :=
  ⟨h'.ent.trans h.ent, fun m => (h'.kern m).trans (h.kern m), h'.log.trans h.log,
    h'.order.trans h.order, h'.ver.trans h.ver⟩

theorem logd_append (s : St) (d : Dst) (o : Op) (t : St) (h : t.log = s.log ++ [o]) :
    logd t d = logd s d ++ if o.dst = d then [o] else [] := by
  unfold logd
  rw [h, List.filter_append]
  by_cases e : o.dst = d <;> simp [e]

theorem deleteKernel_away (c : Cfg) (s : St) (d x : Dst) (e : Entry) (h : x ≠ d) :
    Away d s (deleteKernel c s x e) := by
  unfold deleteKernel
  split
  · exact Away.refl d s
  · refine ⟨rfl, fun m => ?_, ?_, Iff.rfl, rfl⟩
    · simp only
      split
      · exact setKern_other _ _ _ _ _ _ (fun e' => h e'.symm)
      · rfl
    · rw [logd_append s d _ _ rfl, if_neg (show ¬ (Op.del x _ _).dst = d from h), List.append_nil]

theorem addKernel_away (c : Cfg) (s : St) (d x : Dst) (e : Entry) (b : Path) (h : x ≠ d) :
    Away d s (addKernel c s x e b) := by
  have h' : d ≠ x := fun e' => h e'.symm
  unfold addKernel
  split
  · exact Away.refl d s
  · refine ⟨setEnt_other _ _ _ _ h', fun m => setKern_other _ _ _ _ _ _ h', ?_, Iff.rfl, rfl⟩
    rw [logd_append s d _ _ rfl, if_neg (show ¬ (Op.add x _ _).dst = d from h), List.append_nil]

theorem change_away (c : Cfg) (s : St) (d : Dst) (x : Dst × Path) (h : x.1 ≠ d) :
    Away d s (change c s x) := by
  unfold change
  split
  · exact Away.refl d s
  · simp only
    split
    · exact (deleteKernel_away c s d x.1 _ h).trans (addKernel_away c _ d x.1 _ _ h)
    · exact addKernel_away c _ d x.1 _ _ h

theorem changes_away (c : Cfg) (d : Dst) (q : List (Dst × Path)) : ∀ s : St, (∀ x ∈ q, x.1 ≠ d) →
    Away d s (q.foldl (change c) s) := by
  induction q with
  | nil => exact fun s _ => Away.refl d s
  | cons x q ih =>
    intro s h
    rw [List.foldl_cons]
    exact (change_away c s d x (h x List.mem_cons_self)).trans
      (ih _ (fun y hy => h y (List.mem_cons_of_mem _ hy)))

theorem queued_enqueue (q : List (Dst × Path)) (x d : Dst) (b : Path) :
    (x ≠ d → queued (enqueue q x b) d = queued q d) ∧
    (x = d → queued q d = [] → queued (enqueue q x b) d = [(d, b)]) := by
  unfold queued enqueue
  constructor
  · intro h
    split
    · simp [h]
    · simp [List.filter_append, h]
  · intro h hq
    subst h
    split
    · simp [hq]
    · rw [List.filter_append, hq]
      simp

/-- The internet gateway always belongs to a default route. -/
def GwLen (g : Option (Dst × Nat)) : Prop := ∀ d o, g = some (d, o) → d.len = 0

theorem deleteKernel_same (c : Cfg) (s : St) (x : Dst) (e : Entry) :
    (deleteKernel c s x e).ent = s.ent ∧ (deleteKernel c s x e).order = s.order ∧
    (deleteKernel c s x e).inetgw = s.inetgw ∧ (deleteKernel c s x e).ver = s.ver := by
  unfold deleteKernel
  split <;> exact ⟨rfl, rfl, rfl, rfl⟩

theorem addKernel_same (c : Cfg) (s : St) (x : Dst) (e : Entry) (b : Path) :
    (addKernel c s x e b).order = s.order ∧
    (addKernel c s x e b).inetgw = s.inetgw ∧ (addKernel c s x e b).ver = s.ver := by
  unfold addKernel
  split <;> exact ⟨rfl, rfl, rfl⟩

theorem change_same (c : Cfg) (s : St) (x : Dst × Path) :
    (change c s x).order = s.order ∧ (change c s x).inetgw = s.inetgw ∧ (change c s x).ver = s.ver := by
  unfold change
  split
  · exact ⟨rfl, rfl, rfl⟩
  · simp only
    split
    · obtain ⟨_, h2, h3, h4⟩ := deleteKernel_same c s x.1 ‹Entry›
      obtain ⟨h5, h6, h7⟩ := addKernel_same c (deleteKernel c s x.1 ‹Entry›) x.1 ‹Entry› x.2
      exact ⟨h5.trans h2, h6.trans h3, h7.trans h4⟩
    · exact addKernel_same c s x.1 _ x.2

theorem changes_same (c : Cfg) (q : List (Dst × Path)) : ∀ s : St,
    (q.foldl (change c) s).order = s.order ∧ (q.foldl (change c) s).inetgw = s.inetgw ∧
    (q.foldl (change c) s).ver = s.ver := by
  induction q with
  | nil => exact fun s => ⟨rfl, rfl, rfl⟩
  | cons x q ih =>
    intro s
    obtain ⟨h1, h2, h3⟩ := change_same c s x
    obtain ⟨h4, h5, h6⟩ := ih (change c s x)
    exact ⟨h4.trans h1, h5.trans h2, h6.trans h3⟩

theorem updateOne_away (c : Cfg) (a : St × List (Dst × Path)) (d x : Dst) (h : x ≠ d) :
    Away d a.1 (updateOne c a x).1 ∧ queued (updateOne c a x).2 d = queued a.2 d := by
  have h' : d ≠ x := fun e' => h e'.symm
  unfold updateOne
  split
  · exact ⟨Away.refl d _, rfl⟩
  · rename_i e _
    simp only
    split
    · have hd := deleteKernel_away c a.1 d x e h
      refine ⟨⟨?_, hd.kern, hd.log, ?_, hd.ver⟩, rfl⟩
      · show setEnt _ x none d = _
        rw [setEnt_other _ _ _ _ h']
        exact hd.ent
      · show d ∈ (deleteKernel c a.1 x e).order.filter _ ↔ _
        rw [List.mem_filter]
        simp only [Bool.not_eq_true', beq_eq_false_iff_ne]
        exact ⟨fun h1 => hd.order.1 h1.1, fun h1 => ⟨hd.order.2 h1, h'⟩⟩
    · refine ⟨⟨setEnt_other _ _ _ _ h', fun _ => rfl, rfl, Iff.rfl, rfl⟩, ?_⟩
      simp only
      split
      · exact (queued_enqueue _ _ _ _).1 h
      · rfl

theorem updateOne_gwlen (c : Cfg) (a : St × List (Dst × Path)) (x : Dst) (h : GwLen a.1.inetgw) :
    GwLen (updateOne c a x).1.inetgw := by
  unfold updateOne
  split
  · exact h
  · rename_i e _
    simp only
    split
    · show GwLen (deleteKernel c a.1 x e).inetgw
      rw [(deleteKernel_same c a.1 x e).2.2.1]
      exact h
    · rename_i b _
      show GwLen (if x.len = 0 then some (x, b.orig) else a.1.inetgw)
      split
      · rename_i hx
        intro d o e'
        injection e' with e'
        injection e' with e1 e2
        rw [← e1]
        exact hx
      · exact h

theorem updates_away (c : Cfg) (d : Dst) (l : List Dst) : ∀ a : St × List (Dst × Path), d ∉ l →
    GwLen a.1.inetgw → Away d a.1 (l.foldl (updateOne c) a).1 ∧
    queued (l.foldl (updateOne c) a).2 d = queued a.2 d ∧ GwLen (l.foldl (updateOne c) a).1.inetgw := by
  induction l with
  | nil => exact fun a _ h => ⟨Away.refl d _, rfl, h⟩
  | cons x l ih =>
    intro a h hg
    rw [List.mem_cons, not_or] at h
    obtain ⟨h1, h2⟩ := updateOne_away c a d x (fun e => h.1 e.symm)
    obtain ⟨h3, h4, h5⟩ := ih (updateOne c a x) h.2 (updateOne_gwlen c a x hg)
    exact ⟨h1.trans h3, h4.trans h2, h5⟩

/-- The state of the kernel that goes with an entry. -/
def KernOf (c : Cfg) (k : Dst → Nat → Option Nh) (d : Dst) (e : Entry) : Prop :=
  (-1 < e.nh.iif → Holds k d (fibMetric c d e.metric) e.nh) ∧ (¬ -1 < e.nh.iif → Empty k d)

theorem KernOf.congr {c : Cfg} {k k' : Dst → Nat → Option Nh} {d : Dst} {e : Entry}
    (h : KernOf c k d e) (hk : ∀ m, k' d m = k d m) : KernOf c k' d e :=
  ⟨fun hi m => by rw [hk]; exact h.1 hi m, fun hi m => by rw [hk]; exact h.2 hi m⟩

theorem deleteKernel_at (c : Cfg) (hll : ∀ a, c.ll a = false) (s : St) (d : Dst) (e : Entry)
    (h : KernOf c s.kern d e) :
    Empty (deleteKernel c s d e).kern d ∧
    logd (deleteKernel c s d e) d = logd s d ++ [.del d (fibMetric c d e.metric) e.nh] := by
  unfold deleteKernel
  rw [if_neg (by rw [hll]; simp)]
  refine ⟨?_, by rw [logd_append s d _ _ rfl, if_pos (show (Op.del d _ _).dst = d from rfl)]⟩
  simp only
  by_cases hi : -1 < e.nh.iif
  · have hh := h.1 hi
    rw [if_pos (by rw [hh, if_pos rfl])]
    exact holds_del _ _ _ _ hh
  · have hh := h.2 hi
    rw [if_neg (by rw [hh]; simp)]
    exact hh

/-- Whether the old route is deleted before the new one is added. -/
def deletesFirst (c : Cfg) : Prop := c.v4 = false ∨ c.fib ≠ .flat ∨ c.custom = true

instance (c : Cfg) : Decidable (deletesFirst c) := inferInstanceAs (Decidable (_ ∨ _))

theorem change_at (c : Cfg) (hll : ∀ a, c.ll a = false) (s : St) (d : Dst) (e : Entry) (b : Path)
    (he : s.ent d = some e) (h : KernOf c s.kern d e) :
    (change c s (d, b)).ent d = some { e with nh := b.nh, metric := b.metric } ∧
    Holds (change c s (d, b)).kern d (fibMetric c d b.metric) b.nh ∧
    logd (change c s (d, b)) d = logd s d ++
      ((if deletesFirst c ∧ -1 < e.nh.iif then [.del d (fibMetric c d e.metric) e.nh] else []) ++
        [.add d (fibMetric c d b.metric) b.nh]) := by
  have hadd : ∀ t : St, addKernel c t d e b =
      { t with
        kern := setKern t.kern d (fibMetric c d b.metric) (some b.nh)
        log := t.log ++ [.add d (fibMetric c d b.metric) b.nh]
        ent := setEnt t.ent d (some { e with nh := b.nh, metric := b.metric }) } := by
    intro t
    unfold addKernel
    rw [if_neg (by rw [hll]; simp)]
  unfold change
  simp only [he]
  by_cases hc : deletesFirst c ∧ -1 < e.nh.iif
  · rw [if_pos (show (c.v4 = false ∨ c.fib ≠ .flat ∨ c.custom = true) ∧ -1 < e.nh.iif from hc), if_pos hc, hadd]
    obtain ⟨h1, h2⟩ := deleteKernel_at c hll s d e h
    refine ⟨setEnt_same _ _ _, empty_add _ _ _ _ h1, ?_⟩
    rw [logd_append (deleteKernel c s d e) d _ _ rfl, if_pos (show (Op.add d _ _).dst = d from rfl), h2, List.append_assoc]
  · rw [if_neg (show ¬ ((c.v4 = false ∨ c.fib ≠ .flat ∨ c.custom = true) ∧ -1 < e.nh.iif) from hc), if_neg hc, hadd]
    refine ⟨setEnt_same _ _ _, ?_, ?_⟩
    · by_cases hi : -1 < e.nh.iif
      · have hflat : c.fib = .flat := by
          apply Classical.byContradiction
          intro hf
          exact hc ⟨Or.inr (Or.inl hf), hi⟩
        have hm : fibMetric c d b.metric = fibMetric c d e.metric := by
          simp only [fibMetric, hflat]
        show Holds (setKern s.kern d _ _) d _ _
        rw [hm]
        exact holds_add _ _ _ _ _ (h.1 hi)
      · exact empty_add _ _ _ _ (h.2 hi)
    · rw [logd_append s d _ _ rfl, if_pos (show (Op.add d _ _).dst = d from rfl), List.nil_append]

/-- The outcome of an update for one destination of the RIB. -/
theorem update_at (c : Cfg) (hll : ∀ a, c.ll a = false) (s : St) (h : Inv c s) (d : Dst) (e : Entry)
    (he : s.ent d = some e) :
    ∃ g, GwLen g ∧
      (rtBest c g d (e.paths.filter fun p => p.ver == s.ver) = none →
        (update c s).ent d = none ∧ Empty (update c s).kern d ∧ d ∉ (update c s).order ∧
        logd (update c s) d = logd s d ++ [.del d (fibMetric c d e.metric) e.nh]) ∧
      (∀ b, rtBest c g d (e.paths.filter fun p => p.ver == s.ver) = some b →
        d ∈ (update c s).order ∧
        (changed c e b = true →
          (update c s).ent d = some ⟨b.nh, b.metric, e.paths.filter fun p => p.ver == s.ver⟩ ∧
          Holds (update c s).kern d (fibMetric c d b.metric) b.nh ∧
          logd (update c s) d = logd s d ++
            ((if deletesFirst c ∧ -1 < e.nh.iif then [.del d (fibMetric c d e.metric) e.nh] else []) ++
              [.add d (fibMetric c d b.metric) b.nh])) ∧
        (changed c e b = false →
          (update c s).ent d = some { e with paths := e.paths.filter fun p => p.ver == s.ver } ∧
          (∀ m, (update c s).kern d m = s.kern d m) ∧ logd (update c s) d = logd s d)) := by
  have hd : d ∈ s.order := (h.mem d).2 ⟨e, he⟩
  have hk : KernOf c s.kern d e := ⟨h.inst d e he, h.notyet d e he⟩
  obtain ⟨l1, l2, hl⟩ := List.append_of_mem hd
  have hn := h.nodup
  rw [hl, List.nodup_append, List.nodup_cons] at hn
  obtain ⟨_, ⟨hn2, _⟩, hn1⟩ := hn
  have hn1' : d ∉ l1 := fun h' => hn1 d h' d List.mem_cons_self rfl
  unfold update
  rw [hl, List.foldl_append, List.foldl_cons]
  obtain ⟨w1, q1, g1⟩ := updates_away c d l1 (s, []) hn1' h.gwlen
  obtain ⟨a1, ha1⟩ : ∃ a1, l1.foldl (updateOne c) (s, []) = a1 := ⟨_, rfl⟩
  rw [ha1] at w1 q1 g1 ⊢
  obtain ⟨a2, ha2⟩ : ∃ a2, updateOne c a1 d = a2 := ⟨_, rfl⟩
  have g2 : GwLen a2.1.inetgw := by rw [← ha2]; exact updateOne_gwlen c a1 d g1
  rw [ha2]
  obtain ⟨w3, q3, g3⟩ := updates_away c d l2 a2 hn2 g2
  obtain ⟨a3, ha3⟩ : ∃ a3, l2.foldl (updateOne c) a2 = a3 := ⟨_, rfl⟩
  rw [ha3] at w3 q3 g3 ⊢
  simp only
  have he1 : a1.1.ent d = some e := w1.ent.trans he
  have hv1 : a1.1.ver = s.ver := w1.ver
  have hk1 : KernOf c a1.1.kern d e := hk.congr w1.kern
  refine ⟨a1.1.inetgw, g1, fun hb => ?_, fun b hb => ?_⟩
  · unfold updateOne at ha2
    simp only [he1, hv1, hb] at ha2
    obtain ⟨h1, h2⟩ := deleteKernel_at c hll a1.1 d e hk1
    have hq : queued a3.2 d = [] := by
      rw [q3, ← ha2]
      exact q1
    have w4 := changes_away c d a3.2 a3.1 (fun x hx e' => by
      have : x ∈ queued a3.2 d := List.mem_filter.2 ⟨hx, by simpa using e'⟩
      rw [hq] at this
      cases this)
    have w5 := w3.trans w4
    refine ⟨?_, fun m => ?_, ?_, ?_⟩
    · rw [w5.ent, ← ha2]
      exact setEnt_same _ _ _
    · rw [w5.kern, ← ha2]
      exact h1 m
    · rw [w5.order, ← ha2]
      simp
    · rw [w5.log, ← ha2]
      exact h2.trans (by rw [w1.log])
  · unfold updateOne at ha2
    simp only [he1, hv1, hb] at ha2
    have he2 : a2.1.ent d = some { e with paths := e.paths.filter fun p => p.ver == s.ver } := by
      rw [← ha2]
      exact setEnt_same _ _ _
    have ho2 : d ∈ a2.1.order := by
      rw [← ha2]
      exact w1.order.2 hd
    have hl2 : logd a2.1 d = logd s d := by
      rw [← ha2]
      exact w1.log
    have hk2 : ∀ m, a2.1.kern d m = s.kern d m := by
      rw [← ha2]
      exact w1.kern
    refine ⟨?_, fun hc => ?_, fun hc => ?_⟩
    · rw [(changes_same c a3.2 a3.1).1]
      exact w3.order.2 ho2
    · have hq : queued a3.2 d = [(d, b)] := by
        rw [q3, ← ha2]
        simp only [hc, if_true]
        exact (queued_enqueue _ _ _ _).2 rfl q1
      obtain ⟨x1, x2, hx, hx1, _, hx2⟩ := List.filter_eq_cons_iff.1 hq
      have hx1' : ∀ x ∈ x1, x.1 ≠ d := fun x hx => by simpa using hx1 x hx
      have hx2' : ∀ x ∈ x2, x.1 ≠ d := fun x hx e' => by
        have : x ∈ x2.filter fun y => decide (y.1 = d) := List.mem_filter.2 ⟨hx, by simpa using e'⟩
        rw [hx2] at this
        cases this
      rw [hx, List.foldl_append, List.foldl_cons]
      have w4 := w3.trans (changes_away c d x1 a3.1 hx1')
      obtain ⟨s4, hs4⟩ : ∃ s4, x1.foldl (change c) a3.1 = s4 := ⟨_, rfl⟩
      rw [hs4] at w4 ⊢
      have hk4 : KernOf c s4.kern d { e with paths := e.paths.filter fun p => p.ver == s.ver } :=
        (show KernOf c s.kern d { e with paths := e.paths.filter fun p => p.ver == s.ver } from hk).congr
          (fun m => (w4.kern m).trans (hk2 m))
      obtain ⟨c1, c2, c3⟩ := change_at c hll s4 d _ b (w4.ent.trans he2) hk4
      have w6 := changes_away c d x2 (change c s4 (d, b)) hx2'
      refine ⟨w6.ent.trans c1, fun m => (w6.kern m).trans (c2 m), ?_⟩
      rw [w6.log, c3, w4.log, hl2]
    · have hq : queued a3.2 d = [] := by
        rw [q3, ← ha2]
        simp only [hc]
        exact q1
      have w4 := w3.trans (changes_away c d a3.2 a3.1 (fun x hx e' => by
        have : x ∈ queued a3.2 d := List.mem_filter.2 ⟨hx, by simpa using e'⟩
        rw [hq] at this
        cases this))
      exact ⟨w4.ent.trans he2, fun m => (w4.kern m).trans (hk2 m), w4.log.trans hl2⟩

/-- An update does nothing for a destination outside the RIB. -/
theorem update_out (c : Cfg) (s : St) (h : Inv c s) (d : Dst) (hd : s.ent d = none) :
    Away d s (update c s) := by
  have hd' : d ∉ s.order := fun h' => by
    obtain ⟨e, he⟩ := (h.mem d).1 h'
    rw [hd] at he
    cases he
  obtain ⟨w1, q1, _⟩ := updates_away c d s.order (s, []) hd' h.gwlen
  unfold update
  exact w1.trans (changes_away c d _ _ (fun x hx e' => by
    have : x ∈ queued (s.order.foldl (updateOne c) (s, [])).2 d := List.mem_filter.2 ⟨hx, by simpa using e'⟩
    rw [q1] at this
    cases this))

theorem updateOne_order (c : Cfg) (a : St × List (Dst × Path)) (x : Dst) :
    ((updateOne c a x).1.order).Sublist a.1.order ∧ (updateOne c a x).1.ver = a.1.ver := by
  unfold updateOne
  split
  · exact ⟨List.Sublist.refl _, rfl⟩
  · rename_i e _
    simp only
    split
    · obtain ⟨_, h2, _, h4⟩ := deleteKernel_same c a.1 x e
      refine ⟨?_, h4⟩
      show ((deleteKernel c a.1 x e).order.filter _).Sublist _
      rw [h2]
      exact List.filter_sublist
    · exact ⟨List.Sublist.refl _, rfl⟩

theorem updates_order (c : Cfg) (l : List Dst) : ∀ a : St × List (Dst × Path), GwLen a.1.inetgw →
    ((l.foldl (updateOne c) a).1.order).Sublist a.1.order ∧ (l.foldl (updateOne c) a).1.ver = a.1.ver ∧
    GwLen (l.foldl (updateOne c) a).1.inetgw := by
  induction l with
  | nil => exact fun a h => ⟨List.Sublist.refl _, rfl, h⟩
  | cons x l ih =>
    intro a h
    obtain ⟨h1, h2⟩ := updateOne_order c a x
    obtain ⟨h3, h4, h5⟩ := ih (updateOne c a x) (updateOne_gwlen c a x h)
    exact ⟨h3.trans h1, h4.trans h2, h5⟩

theorem update_global (c : Cfg) (s : St) (h : Inv c s) :
    (update c s).order.Nodup ∧ (update c s).ver = s.ver ∧ GwLen (update c s).inetgw := by
  obtain ⟨h1, h2, h3⟩ := updates_order c s.order (s, []) h.gwlen
  obtain ⟨h4, h5, h6⟩ := changes_same c (s.order.foldl (updateOne c) (s, [])).2
    (s.order.foldl (updateOne c) (s, [])).1
  unfold update
  refine ⟨?_, h6.trans h2, ?_⟩
  · rw [h4]
    exact h.nodup.sublist h1
  · rw [h5]
    exact h3

end Verif.Route
