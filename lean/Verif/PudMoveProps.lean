import Verif.PudMoveModel

/-!
# C145: the pud plugin sees movement exactly when a measure says so

Each measure is a statement about the numbers of the two positions that can hold, fail, or not be known.
-/

namespace Verif.PudMove

open Verif.PudState (Tri)

/-- A position that can be used. -/
def Usable (p : Pos) : Prop := p.fix = some true

/-- The speed reaches its threshold. -/
def Fast (c : Cfg) (avg : Pos) : Prop := ∃ s, avg.speed = some s ∧ c.speedThr ≤ s

/-- There was no position before, or it is as far away as the threshold. -/
def Far (c : Cfg) (avg last : Pos) (d : Int) : Prop :=
  (avg.lat = true ∧ avg.lon = true) ∧ ((last.lat = true ∧ last.lon = true) → c.distThr ≤ d)

/-- There was no elevation before, or it differs as much as the threshold. -/
def High (c : Cfg) (avg last : Pos) : Prop :=
  ∃ a, avg.elv = some a ∧ ∀ l, last.elv = some l → c.distThr ≤ a - l ∨ c.distThr ≤ l - a

/-- One of the two values for the precision is there. -/
def SomeDop (x y : Option Int) : Prop := x ≠ none ∨ y ≠ none

/-- Both positions, and a precision. -/
def HKnown (avg last : Pos) : Prop :=
  (avg.lat = true ∧ avg.lon = true) ∧ (last.lat = true ∧ last.lon = true) ∧ SomeDop avg.hdop last.hdop

/-- Both elevations, and a precision. -/
def VKnown (avg last : Pos) : Prop := avg.elv ≠ none ∧ last.elv ≠ none ∧ SomeDop avg.vdop last.vdop

/-- The circles of precision around the positions do not touch. -/
def OutH (c : Cfg) (avg last : Pos) (d : Int) : Prop :=
  HKnown avg last ∧ c.mult * (last.hdop.getD c.defHdop + avg.hdop.getD c.defHdop) < d

/-- The ranges of precision around the elevations do not touch. -/
def OutV (c : Cfg) (avg last : Pos) : Prop :=
  VKnown avg last ∧ ∃ a l, avg.elv = some a ∧ last.elv = some l ∧
    (c.mult * (last.vdop.getD c.defVdop + avg.vdop.getD c.defVdop) < a - l ∨
     c.mult * (last.vdop.getD c.defVdop + avg.vdop.getD c.defVdop) < l - a)

/-- The circle around the new position lies in that of the old one. -/
def InH (c : Cfg) (avg last : Pos) (d : Int) : Prop :=
  HKnown avg last ∧ d ≤ c.mult * (last.hdop.getD c.defHdop - avg.hdop.getD c.defHdop)

/-- The range around the new elevation lies in that of the old one. -/
def InV (c : Cfg) (avg last : Pos) : Prop :=
  VKnown avg last ∧ ∃ a l, avg.elv = some a ∧ last.elv = some l ∧
    a - l ≤ c.mult * (last.vdop.getD c.defVdop - avg.vdop.getD c.defVdop) ∧
    l - a ≤ c.mult * (last.vdop.getD c.defVdop - avg.vdop.getD c.defVdop)

/-- A measure with the threshold is known: the speed, the position or the elevation. -/
def Measured (avg : Pos) : Prop := avg.speed ≠ none ∨ (avg.lat = true ∧ avg.lon = true) ∨ avg.elv ≠ none

/-- A result that shows whether a statement holds, if it is known. -/
private def Shows (t : Tri) (known holds : Prop) : Prop :=
  (t = .set ↔ known ∧ holds) ∧ (t = .unset ↔ known ∧ ¬ holds)

private theorem shows_tri (b : Bool) (k h : Prop) (hk : k) (hb : b = true ↔ h) : Shows (tri b) k h := by
  unfold Shows tri
  cases b with
  | true => simp [hk, hb.mp rfl]
  | false =>
    have : ¬ h := fun x => by have := hb.mpr x; cases this
    simp [hk, this]

private theorem shows_unknown (k h : Prop) (hk : ¬ k) : Shows .unknown k h := by simp [Shows, hk]

private theorem shows_set (k h : Prop) (hk : k) (hh : h) : Shows .set k h := by simp [Shows, hk, hh]

/-- The result before the measures are put together. -/
private def stage (c : Cfg) (avg last : Pos) (d : Int) : Res :=
  doElv c avg last (doPos c avg last d (doSpeed c avg clear))

private structure Stage (c : Cfg) (avg last : Pos) (d : Int) (r : Res) : Prop where
  moving : r.moving = .unknown
  over : r.overThresholds = .unknown
  outside : r.outside = .unknown
  inside : r.inside = .unknown
  sp : Shows r.speedOver (avg.speed ≠ none) (Fast c avg)
  ho : Shows r.hOver (avg.lat = true ∧ avg.lon = true) (Far c avg last d)
  vo : Shows r.vOver (avg.elv ≠ none) (High c avg last)
  oh : Shows r.outsideH (HKnown avg last) (OutH c avg last d)
  ov : Shows r.outsideV (VKnown avg last) (OutV c avg last)
  ih : Shows r.insideH (HKnown avg last) (InH c avg last d)
  iv : Shows r.insideV (VKnown avg last) (InV c avg last)

/-- What the speed leaves. -/
private structure AfterSpeed (c : Cfg) (avg : Pos) (r : Res) : Prop where
  rest : r = { clear with speedOver := r.speedOver }
  sp : Shows r.speedOver (avg.speed ≠ none) (Fast c avg)

private theorem after_speed (c : Cfg) (avg : Pos) : AfterSpeed c avg (doSpeed c avg clear) := by
  unfold doSpeed
  cases h : avg.speed with
  | none => exact ⟨rfl, shows_unknown _ _ (by simp [h])⟩
  | some s => exact ⟨rfl, shows_tri _ _ _ (by simp [h]) (by simp [Fast, h])⟩

/-- What the position leaves. -/
private structure AfterPos (c : Cfg) (avg last : Pos) (d : Int) (r r0 : Res) : Prop where
  rest : r = { r0 with hOver := r.hOver, outsideH := r.outsideH, insideH := r.insideH }
  ho : Shows r.hOver (avg.lat = true ∧ avg.lon = true) (Far c avg last d)
  oh : Shows r.outsideH (HKnown avg last) (OutH c avg last d)
  ih : Shows r.insideH (HKnown avg last) (InH c avg last d)

private theorem after_pos (c : Cfg) (avg last : Pos) (d : Int) (r : Res)
    (h1 : r.hOver = .unknown) (h2 : r.outsideH = .unknown) (h3 : r.insideH = .unknown) :
    AfterPos c avg last d (doPos c avg last d r) r := by
  have ha : hasPos avg = true ↔ (avg.lat = true ∧ avg.lon = true) := by unfold hasPos; simp
  have hl : hasPos last = true ↔ (last.lat = true ∧ last.lon = true) := by unfold hasPos; simp
  unfold doPos
  by_cases hap : avg.lat = true ∧ avg.lon = true
  · by_cases hlp : last.lat = true ∧ last.lon = true
    · rw [if_neg (by rw [hl.mpr hlp]; simp), if_pos ⟨ha.mpr hap, hl.mpr hlp⟩]
      have hf : decide (d ≥ c.distThr) = true ↔ Far c avg last d := by
        unfold Far; simp [hap, hlp]
      have hd : (avg.hdop.isSome = true ∨ last.hdop.isSome = true) ↔ SomeDop avg.hdop last.hdop := by
        unfold SomeDop; simp only [Option.isSome_iff_ne_none]
      by_cases hk : SomeDop avg.hdop last.hdop
      · rw [if_pos (hd.mpr hk)]
        have hkn : HKnown avg last := ⟨hap, hlp, hk⟩
        exact ⟨rfl, shows_tri _ _ _ hap hf, shows_tri _ _ _ hkn (by unfold OutH; simp [hkn]),
          shows_tri _ _ _ hkn (by unfold InH; simp [hkn])⟩
      · rw [if_neg (fun x => hk (hd.mp x))]
        have hkn : ¬ HKnown avg last := fun x => hk x.2.2
        refine ⟨by simp only [], shows_tri _ _ _ hap hf, ?_, ?_⟩
        · simp only []; rw [h2]; exact shows_unknown _ _ hkn
        · simp only []; rw [h3]; exact shows_unknown _ _ hkn
    · have hkn : ¬ HKnown avg last := fun x => hlp x.2.1
      have hlf : hasPos last = false := by simpa using fun x => hlp (hl.mp x)
      rw [if_pos ⟨ha.mpr hap, hlf⟩]
      refine ⟨by simp only [], shows_set _ _ hap ⟨hap, fun x => absurd x hlp⟩, ?_, ?_⟩
      · simp only []; rw [h2]; exact shows_unknown _ _ hkn
      · simp only []; rw [h3]; exact shows_unknown _ _ hkn
  · have hkn : ¬ HKnown avg last := fun x => hap x.1
    rw [if_neg (fun x => hap (ha.mp x.1)), if_neg (fun x => hap (ha.mp x.1))]
    exact ⟨rfl, by rw [h1]; exact shows_unknown _ _ hap, by rw [h2]; exact shows_unknown _ _ hkn,
      by rw [h3]; exact shows_unknown _ _ hkn⟩

/-- What the elevation leaves. -/
private structure AfterElv (c : Cfg) (avg last : Pos) (r r0 : Res) : Prop where
  rest : r = { r0 with vOver := r.vOver, outsideV := r.outsideV, insideV := r.insideV }
  vo : Shows r.vOver (avg.elv ≠ none) (High c avg last)
  ov : Shows r.outsideV (VKnown avg last) (OutV c avg last)
  iv : Shows r.insideV (VKnown avg last) (InV c avg last)

private theorem after_elv (c : Cfg) (avg last : Pos) (r : Res)
    (h1 : r.vOver = .unknown) (h2 : r.outsideV = .unknown) (h3 : r.insideV = .unknown) :
    AfterElv c avg last (doElv c avg last r) r := by
  unfold doElv
  cases ha : avg.elv with
  | none =>
    have hkn : ¬ VKnown avg last := fun x => x.1 ha
    exact ⟨rfl, by rw [h1]; exact shows_unknown _ _ (by simp [ha]), by rw [h2]; exact shows_unknown _ _ hkn,
      by rw [h3]; exact shows_unknown _ _ hkn⟩
  | some a =>
    cases hl : last.elv with
    | none =>
      have hkn : ¬ VKnown avg last := fun x => x.2.1 hl
      refine ⟨rfl, shows_set _ _ (by simp [ha]) ⟨a, ha, fun l hx => by rw [hl] at hx; cases hx⟩, ?_, ?_⟩
      · simp only []; rw [h2]; exact shows_unknown _ _ hkn
      · simp only []; rw [h3]; exact shows_unknown _ _ hkn
    | some l =>
      simp only []
      obtain ⟨v, hv⟩ : ∃ v, v = if l - a < 0 then a - l else l - a := ⟨_, rfl⟩
      have hge : ∀ t : Int, v ≥ t ↔ t ≤ a - l ∨ t ≤ l - a := by intro t; rw [hv]; split <;> omega
      have hgt : ∀ t : Int, v > t ↔ t < a - l ∨ t < l - a := by intro t; rw [hv]; split <;> omega
      have hle : ∀ t : Int, v ≤ t ↔ a - l ≤ t ∧ l - a ≤ t := by intro t; rw [hv]; split <;> omega
      rw [← hv]
      have hf : decide (v ≥ c.distThr) = true ↔ High c avg last := by
        rw [decide_eq_true_eq, hge]; unfold High; simp [ha, hl]
      have hd : (avg.vdop.isSome = true ∨ last.vdop.isSome = true) ↔ SomeDop avg.vdop last.vdop := by
        unfold SomeDop; simp only [Option.isSome_iff_ne_none]
      unfold doElv2
      by_cases hk : SomeDop avg.vdop last.vdop
      · rw [if_pos (hd.mpr hk)]
        have hkn : VKnown avg last := ⟨by simp [ha], by simp [hl], hk⟩
        refine ⟨rfl, shows_tri _ _ _ (by simp [ha]) hf, shows_tri _ _ _ hkn ?_, shows_tri _ _ _ hkn ?_⟩
        · rw [decide_eq_true_eq, hgt]; unfold OutV; simp [hkn, ha, hl]
        · rw [decide_eq_true_eq, hle]; unfold InV; simp [hkn, ha, hl]
      · rw [if_neg (fun x => hk (hd.mp x))]
        have hkn : ¬ VKnown avg last := fun x => hk x.2.2
        refine ⟨by simp only [], shows_tri _ _ _ (by simp [ha]) hf, ?_, ?_⟩
        · simp only []; rw [h2]; exact shows_unknown _ _ hkn
        · simp only []; rw [h3]; exact shows_unknown _ _ hkn

private theorem stage_ok (c : Cfg) (avg last : Pos) (d : Int) : Stage c avg last d (stage c avg last d) := by
  unfold stage
  have h1 := after_speed c avg
  obtain ⟨r1, hr1⟩ : ∃ r1, r1 = doSpeed c avg clear := ⟨_, rfl⟩
  rw [← hr1] at h1 ⊢
  have h2 := after_pos c avg last d r1 (by rw [h1.rest]; rfl) (by rw [h1.rest]; rfl) (by rw [h1.rest]; rfl)
  obtain ⟨r2, hr2⟩ : ∃ r2, r2 = doPos c avg last d r1 := ⟨_, rfl⟩
  rw [← hr2] at h2 ⊢
  have h3 := after_elv c avg last r2 (by rw [h2.rest, h1.rest]; rfl) (by rw [h2.rest, h1.rest]; rfl)
    (by rw [h2.rest, h1.rest]; rfl)
  obtain ⟨r3, hr3⟩ : ∃ r3, r3 = doElv c avg last r2 := ⟨_, rfl⟩
  rw [← hr3] at h3 ⊢
  have e2 := h2.rest
  have e3 := h3.rest
  refine ⟨by rw [e3, e2, h1.rest]; rfl, by rw [e3, e2, h1.rest]; rfl, by rw [e3, e2, h1.rest]; rfl,
    by rw [e3, e2, h1.rest]; rfl, ?_, ?_, h3.vo, ?_, h3.ov, ?_, h3.iv⟩
  · have : r3.speedOver = r1.speedOver := by rw [e3, e2]
    rw [this]; exact h1.sp
  · have : r3.hOver = r2.hOver := by rw [e3]
    rw [this]; exact h2.ho
  · have : r3.outsideH = r2.outsideH := by rw [e3]
    rw [this]; exact h2.oh
  · have : r3.insideH = r2.insideH := by rw [e3]
    rw [this]; exact h2.ih

/-- How the measures are put together. -/
private theorem acc_moving (r : Res) (hm : r.moving = .unknown) (ho : r.overThresholds = .unknown)
    (hx : r.outside = .unknown) :
    ((accMoving (accOver (accOutside (accInside r)))).moving = .set ↔
      r.speedOver = .set ∨ r.hOver = .set ∨ r.vOver = .set ∨ r.outsideH = .set ∨ r.outsideV = .set) ∧
    ((accMoving (accOver (accOutside (accInside r)))).moving = .unset ↔
      (r.speedOver ≠ .set ∧ r.hOver ≠ .set ∧ r.vOver ≠ .set ∧ r.outsideH ≠ .set ∧ r.outsideV ≠ .set) ∧
      (r.speedOver = .unset ∨ r.hOver = .unset ∨ r.vOver = .unset) ∧
      (r.outsideH = .unset ∨ r.outsideV = .unset)) := by
  obtain ⟨m, o, s, h, v, x, xh, xv, i, ih, iv⟩ := r
  simp only at hm ho hx
  subst hm ho hx
  have hin : ∃ i', accInside ⟨.unknown, .unknown, s, h, v, .unknown, xh, xv, i, ih, iv⟩ =
      ⟨.unknown, .unknown, s, h, v, .unknown, xh, xv, i', ih, iv⟩ := by
    unfold accInside; (repeat' split) <;> exact ⟨_, rfl⟩
  obtain ⟨i', hi⟩ := hin
  rw [hi]
  simp only []
  clear hi
  cases s <;> cases h <;> cases v <;> cases xh <;> cases xv <;> simp [accMoving, accOver, accOutside]

private theorem acc_inside (r : Res) (h : r.inside = .unknown) :
    ((accMoving (accOver (accOutside (accInside r)))).inside = .set ↔ r.insideH = .set ∧ r.insideV = .set) := by
  have h1 : ∀ x : Res, (accMoving x).inside = x.inside := by intro x; unfold accMoving; (repeat' split) <;> rfl
  have h2 : ∀ x : Res, (accOver x).inside = x.inside := by intro x; unfold accOver; (repeat' split) <;> rfl
  have h3 : ∀ x : Res, (accOutside x).inside = x.inside := by intro x; unfold accOutside; (repeat' split) <;> rfl
  rw [h1, h2, h3]
  unfold accInside
  by_cases hs : r.insideH = .set ∧ r.insideV = .set
  · rw [if_pos hs]; simp [hs]
  · rw [if_neg hs]
    split
    · simp [hs]
    · simp [hs, h]

private theorem moved_eq (c : Cfg) (avg last : Pos) (d : Int) (h1 : Usable avg) (h2 : Usable last) :
    moved c avg last d = accMoving (accOver (accOutside (accInside (stage c avg last d)))) := by
  unfold moved determine
  rw [if_neg (by unfold valid; rw [show avg.fix = some true from h1]; simp),
    if_neg (by unfold valid; rw [show last.fix = some true from h2]; simp)]
  rfl

private theorem moved_invalid (c : Cfg) (avg last : Pos) (d : Int) (h : ¬ (Usable avg ∧ Usable last)) :
    moved c avg last d = clear := by
  unfold moved determine
  by_cases h1 : valid avg = false
  · rw [if_pos h1]; rfl
  · rw [if_neg h1]
    have : valid last = false := by
      cases hv : valid last with
      | false => rfl
      | true =>
        exfalso
        refine h ⟨?_, ?_⟩
        · unfold Usable; simpa [valid] using h1
        · unfold Usable; simpa [valid] using hv
    rw [if_pos this]; rfl

private theorem far_known {c : Cfg} {avg last : Pos} {d : Int} (h : Far c avg last d) : avg.lat = true ∧ avg.lon = true := h.1

/-- Movement is seen exactly if both positions can be used and one of the five measures says so. -/
theorem C145_moving (c : Cfg) (avg last : Pos) (d : Int) :
    (moved c avg last d).moving = .set ↔
      Usable avg ∧ Usable last ∧
        (Fast c avg ∨ Far c avg last d ∨ High c avg last ∨ OutH c avg last d ∨ OutV c avg last) := by
  by_cases h : Usable avg ∧ Usable last
  · rw [moved_eq c avg last d h.1 h.2]
    have hs := stage_ok c avg last d
    rw [(acc_moving _ hs.moving hs.over hs.outside).1, hs.sp.1, hs.ho.1, hs.vo.1, hs.oh.1, hs.ov.1]
    constructor
    · rintro (⟨_, x⟩ | ⟨_, x⟩ | ⟨_, x⟩ | ⟨_, x⟩ | ⟨_, x⟩)
      · exact ⟨h.1, h.2, Or.inl x⟩
      · exact ⟨h.1, h.2, Or.inr (Or.inl x)⟩
      · exact ⟨h.1, h.2, Or.inr (Or.inr (Or.inl x))⟩
      · exact ⟨h.1, h.2, Or.inr (Or.inr (Or.inr (Or.inl x)))⟩
      · exact ⟨h.1, h.2, Or.inr (Or.inr (Or.inr (Or.inr x)))⟩
    · rintro ⟨_, _, x | x | x | x | x⟩
      · refine Or.inl ⟨?_, x⟩
        obtain ⟨s, hs1, _⟩ := x
        simp [hs1]
      · exact Or.inr (Or.inl ⟨x.1, x⟩)
      · refine Or.inr (Or.inr (Or.inl ⟨?_, x⟩))
        obtain ⟨s, hs1, _⟩ := x
        simp [hs1]
      · exact Or.inr (Or.inr (Or.inr (Or.inl ⟨x.1, x⟩)))
      · exact Or.inr (Or.inr (Or.inr (Or.inr ⟨x.1, x⟩)))
  · rw [moved_invalid c avg last d h]
    constructor
    · intro x; cases x
    · intro x; exact absurd ⟨x.1, x.2.1⟩ h

/-- A configuration and a position for the examples. -/
private def cfg : Cfg := ⟨9, 50, 3, 50, 50⟩

private def pos (speed : Int) (hdop elv : Option Int) : Pos := ⟨some true, true, true, some speed, hdop, elv, none⟩

example : (moved cfg (pos 0 (some 2) none) (pos 0 (some 3) none) 16).moving = .set := by decide +kernel

/-- "Not moving" is seen exactly if none of the measures says so, one of those with a threshold is known and one of those
with a precision is. -/
theorem C145_resting (c : Cfg) (avg last : Pos) (d : Int) :
    (moved c avg last d).moving = .unset ↔
      Usable avg ∧ Usable last ∧
        (¬ Fast c avg ∧ ¬ Far c avg last d ∧ ¬ High c avg last ∧ ¬ OutH c avg last d ∧ ¬ OutV c avg last) ∧
        Measured avg ∧ (HKnown avg last ∨ VKnown avg last) := by
  by_cases h : Usable avg ∧ Usable last
  · have hmv := C145_moving c avg last d
    rw [moved_eq c avg last d h.1 h.2] at hmv ⊢
    have hs := stage_ok c avg last d
    have ha := acc_moving _ hs.moving hs.over hs.outside
    have hno := hmv.symm.trans ha.1
    rw [ha.2, hs.sp.2, hs.ho.2, hs.vo.2, hs.oh.2, hs.ov.2]
    have hn : ((stage c avg last d).speedOver ≠ .set ∧ (stage c avg last d).hOver ≠ .set ∧ (stage c avg last d).vOver ≠ .set ∧
        (stage c avg last d).outsideH ≠ .set ∧ (stage c avg last d).outsideV ≠ .set) ↔
        (¬ Fast c avg ∧ ¬ Far c avg last d ∧ ¬ High c avg last ∧ ¬ OutH c avg last d ∧ ¬ OutV c avg last) := by
      have := not_congr hno
      simp only [h.1, h.2, true_and, not_or] at this
      exact this.symm
    rw [hn]
    unfold Measured
    constructor
    · rintro ⟨x, y, z⟩
      refine ⟨h.1, h.2, x, ?_, ?_⟩
      · rcases y with y | y | y
        · exact Or.inl y.1
        · exact Or.inr (Or.inl y.1)
        · exact Or.inr (Or.inr y.1)
      · rcases z with z | z
        · exact Or.inl z.1
        · exact Or.inr z.1
    · rintro ⟨_, _, x, y, z⟩
      refine ⟨x, ?_, ?_⟩
      · rcases y with y | y | y
        · exact Or.inl ⟨y, x.1⟩
        · exact Or.inr (Or.inl ⟨y, x.2.1⟩)
        · exact Or.inr (Or.inr ⟨y, x.2.2.1⟩)
      · rcases z with z | z
        · exact Or.inl ⟨z, x.2.2.2.1⟩
        · exact Or.inr ⟨z, x.2.2.2.2⟩
  · rw [moved_invalid c avg last d h]
    constructor
    · intro x; cases x
    · intro x; exact absurd ⟨x.1, x.2.1⟩ h

example : (moved cfg (pos 0 (some 2) none) (pos 0 (some 3) none) 15).moving = .unset := by decide +kernel

/-- The new position counts as inside exactly if both its circle and its range lie in those of the old one. -/
theorem C145_inside (c : Cfg) (avg last : Pos) (d : Int) :
    (moved c avg last d).inside = .set ↔ Usable avg ∧ Usable last ∧ InH c avg last d ∧ InV c avg last := by
  by_cases h : Usable avg ∧ Usable last
  · rw [moved_eq c avg last d h.1 h.2]
    have hs := stage_ok c avg last d
    rw [acc_inside _ hs.inside, hs.ih.1, hs.iv.1]
    constructor
    · rintro ⟨⟨_, x⟩, ⟨_, y⟩⟩; exact ⟨h.1, h.2, x, y⟩
    · rintro ⟨_, _, x, y⟩; exact ⟨⟨x.1, x⟩, ⟨y.1, y⟩⟩
  · rw [moved_invalid c avg last d h]
    constructor
    · intro x; cases x
    · intro x; exact absurd ⟨x.1, x.2.1⟩ h

example : (moved cfg ⟨some true, true, true, none, some 2, some 4, some 1⟩ ⟨some true, true, true, none, some 3, some 6, some 2⟩ 3).inside =
    .set := by decide +kernel

/-- With precisions and a multiplier that are not negative, a position that is inside is not outside. -/
theorem C145_exclusive (c : Cfg) (avg last : Pos) (d : Int) (hm : 0 ≤ c.mult)
    (h1 : 0 ≤ avg.hdop.getD c.defHdop) (h2 : 0 ≤ avg.vdop.getD c.defVdop)
    (h : (moved c avg last d).inside = .set) : ¬ OutH c avg last d ∧ ¬ OutV c avg last := by
  obtain ⟨_, _, hi, hv⟩ := (C145_inside c avg last d).mp h
  have e1 := Int.mul_nonneg hm h1
  have e2 := Int.mul_nonneg hm h2
  constructor
  · rintro ⟨_, ho⟩
    have := hi.2
    rw [Int.mul_add] at ho
    rw [Int.mul_sub] at this
    omega
  · rintro ⟨_, a, l, ha, hl, ho⟩
    obtain ⟨_, a', l', ha', hl', hi1, hi2⟩ := hv
    rw [ha] at ha'; cases ha'
    rw [hl] at hl'; cases hl'
    rw [Int.mul_add] at ho
    rw [Int.mul_sub] at hi1 hi2
    omega

/-- Without any precision and below all thresholds nothing is known (the state then goes to "stationary", C142). -/
theorem C145_no_precision (c : Cfg) (avg last : Pos) (d : Int)
    (h1 : avg.hdop = none ∧ last.hdop = none) (h2 : avg.vdop = none ∧ last.vdop = none)
    (h3 : ¬ Fast c avg ∧ ¬ Far c avg last d ∧ ¬ High c avg last) : (moved c avg last d).moving = .unknown := by
  have hk : ¬ HKnown avg last := fun x => by rcases x.2.2 with y | y <;> simp [h1.1, h1.2] at y
  have hv : ¬ VKnown avg last := fun x => by rcases x.2.2 with y | y <;> simp [h2.1, h2.2] at y
  have n1 : (moved c avg last d).moving ≠ .set := by
    rw [ne_eq, C145_moving]
    rintro ⟨_, _, x | x | x | x | x⟩
    · exact h3.1 x
    · exact h3.2.1 x
    · exact h3.2.2 x
    · exact hk x.1
    · exact hv x.1
  have n2 : (moved c avg last d).moving ≠ .unset := by
    rw [ne_eq, C145_resting]
    rintro ⟨_, _, _, _, x | x⟩
    · exact hk x
    · exact hv x
  cases h : (moved c avg last d).moving with
  | unknown => rfl
  | unset => exact absurd h n2
  | set => exact absurd h n1

example : (moved cfg (pos 0 none none) (pos 0 none none) 10).moving = .unknown := by decide +kernel

/-- The position that is sent afterwards: the average, at rest without speed, if the node moves or just stopped or started, if
there was nothing that could be used, or if it is more precise and inside; otherwise that of before, which then can be used
if the average can. -/
theorem C145_sent (c : Cfg) (avg last : Pos) (d : Int) (change moving stationary : Bool) :
    (Usable avg → Usable (sent c avg last d change moving stationary)) ∧
    ((moving = true ∨ change = true ∨ (Usable avg ∧ ¬ Usable last) ∨
        (Usable avg ∧ Usable last ∧ InH c avg last d ∧ InV c avg last)) →
      ∃ sp, sent c avg last d change moving stationary = { avg with speed := sp } ∧
        (stationary = false → sp = avg.speed) ∧ (stationary = true → ∀ x, sp = some x → x = 0) ∧ (sp = none ↔ avg.speed = none)) ∧
    (¬ (moving = true ∨ change = true ∨ (Usable avg ∧ ¬ Usable last) ∨
        (Usable avg ∧ Usable last ∧ InH c avg last d ∧ InV c avg last)) →
      sent c avg last d change moving stationary = last) := by
  have hv : ∀ p : Pos, valid p = true ↔ Usable p := by intro p; unfold valid Usable; simp
  have hf : ∀ p : Pos, valid p = false ↔ ¬ Usable p := by intro p; rw [← hv]; simp
  have hc : (moving = true ∨ change = true ∨ (valid avg = true ∧ valid last = false) ∨ (moved c avg last d).inside = .set) ↔
      (moving = true ∨ change = true ∨ (Usable avg ∧ ¬ Usable last) ∨
        (Usable avg ∧ Usable last ∧ InH c avg last d ∧ InV c avg last)) := by
    rw [hv, hf, C145_inside]
  unfold sent
  refine ⟨fun hu => ?_, fun h => ?_, fun h => if_neg (fun x => h (hc.mp x))⟩
  · by_cases h : moving = true ∨ change = true ∨ (valid avg = true ∧ valid last = false) ∨ (moved c avg last d).inside = .set
    · rw [if_pos h]
      split
      · exact hu
      · exact hu
    · rw [if_neg h]
      cases hx : valid last with
      | true => exact (hv last).mp hx
      | false => exact absurd (Or.inr (Or.inr (Or.inl ⟨(hv avg).mpr hu, hx⟩))) h
  · rw [if_pos (hc.mpr h)]
    cases stationary with
    | true =>
      refine ⟨_, rfl, by simp, fun _ x hx => ?_, by simp⟩
      cases hs : avg.speed with
      | none => rw [hs] at hx; cases hx
      | some s => rw [hs] at hx; simpa using hx.symm
    | false => exact ⟨avg.speed, rfl, by simp, by simp, by simp⟩

example : sent cfg (pos 4 (some 2) none) ⟨none, false, false, none, none, none, none⟩ 0 false false true = pos 0 (some 2) none := by
  decide +kernel

end Verif.PudMove
