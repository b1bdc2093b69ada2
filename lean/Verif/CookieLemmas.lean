import Verif.CookieSpec

/-
The invariant of the allocator and that every allowed call keeps it.
-/

namespace Verif.Cookie

/-- The invariant between the state of the code and the client's view. -/
structure Inv (st : St) (sp : Sp) : Prop where
  size : ∀ i, sp.sizes i = (st.ck i).map (·.size)
  big : ∀ i c, st.ck i = some c → 16 ≤ c.size
  rng : ∀ i c, st.ck i = some c → 1 ≤ i ∧ i ≤ 49
  nodup : (sp.live.map (·.ptr)).Nodup
  live : ∀ r ∈ sp.live, ∃ c, st.ck r.id = some c ∧ r.data.length = c.size ∧
    st.heap r.ptr = some (r.data ++ brand r.id)
  fnodup : ∀ i c, st.ck i = some c → c.flist.Nodup
  fblk : ∀ i c q, st.ck i = some c → q ∈ c.flist →
    ∃ b, st.heap q = some b ∧ b.length = c.size + 8 ∧ b.drop c.size = List.replicate 8 0
  flive : ∀ i c q, st.ck i = some c → q ∈ c.flist → ∀ r ∈ sp.live, r.ptr ≠ q
  fdisj : ∀ i j c d q, st.ck i = some c → st.ck j = some d → q ∈ c.flist → q ∈ d.flist → i = j
  flu : ∀ i c, st.ck i = some c → c.flu = c.flist.length ∧ c.flu ≤ 429496730
  usage : ∀ i c, st.ck i = some c → c.usage = u32 (sp.count i)
  leak : ∀ p b, st.heap p = some b →
    (∃ r ∈ sp.live, r.ptr = p) ∨ ∃ i c, st.ck i = some c ∧ p ∈ c.flist

theorem upd_self {α : Type} (f : Nat → Option α) (p : Nat) (v : Option α) : upd f p v p = v := by
  simp [upd]

theorem upd_other {α : Type} (f : Nat → Option α) {p q : Nat} (v : Option α) (h : q ≠ p) :
    upd f p v q = f q := by
  simp [upd, h]

theorem brand_length (i : Nat) : (brand i).length = 8 := rfl

theorem inv_init : Inv init ⟨[], fun _ => none⟩ := by
  constructor <;> simp [init]

/-! ### Writing -/

theorem overwrite_length (d : List Nat) (off : Nat) (bs : List Nat) :
    (overwrite d off bs).length = d.length := by
  simp [overwrite]

theorem writeAt_append (d x : List Nat) (off : Nat) (bs : List Nat)
    (h : off + bs.length ≤ d.length) : writeAt (d ++ x) off bs = overwrite d off bs ++ x := by
  have h1 : writeAt (d ++ x) off bs = writeAt d off bs ++ x := by
    unfold writeAt
    rw [List.take_append_of_le_length (by omega), List.drop_append_of_le_length (by omega)]
    simp
  rw [h1]
  congr 1
  apply List.ext_getElem?
  intro j
  unfold writeAt overwrite
  by_cases hj : j < d.length
  · rw [List.getElem?_map, List.getElem?_range hj]
    simp only [Option.map_some]
    by_cases h1 : j < off
    · rw [if_neg (by omega), List.append_assoc, List.getElem?_append_left (by simp; omega),
        List.getElem?_take_of_lt h1]
      simp [List.getD, hj]
    · by_cases h2 : j < off + bs.length
      · rw [if_pos ⟨by omega, h2⟩, List.append_assoc,
          List.getElem?_append_right (by simp; omega), List.getElem?_append_left (by simp; omega)]
        have : (List.take off d).length = off := by simp; omega
        rw [this]
        have h3 : j - off < bs.length := by omega
        simp [List.getD, h3]
      · rw [if_neg (by omega), List.getElem?_append_right (by simp; omega), List.getElem?_drop]
        have : (List.take off d ++ bs).length = off + bs.length := by simp; omega
        rw [this, show off + bs.length + (j - (off + bs.length)) = j by omega]
        simp [List.getD, hj]
  · rw [List.getElem?_eq_none (by simp; omega), List.getElem?_eq_none (by simp; omega)]

theorem writeAt_end (a x bs : List Nat) (n : Nat) (ha : a.length = n) (hx : bs.length = x.length) :
    writeAt (a ++ x) n bs = a ++ bs := by
  unfold writeAt
  rw [List.take_left' ha, List.drop_of_length_le (by simp; omega)]
  simp

theorem writeAt_front (a x bs : List Nat) (ha : bs.length = a.length) :
    writeAt (a ++ x) 0 bs = bs ++ x := by
  unfold writeAt
  simp [ha]

theorem writeAt_length (b bs : List Nat) (off : Nat) (h : off + bs.length ≤ b.length) :
    (writeAt b off bs).length = b.length := by
  simp [writeAt]; omega

theorem mem_live_unique {live : List Rec} (hn : (live.map (·.ptr)).Nodup) {a b : Rec}
    (ha : a ∈ live) (hb : b ∈ live) (h : a.ptr = b.ptr) : a = b := by
  induction live with
  | nil => cases ha
  | cons x xs ih =>
    simp only [List.map_cons, List.nodup_cons] at hn
    rcases List.mem_cons.1 ha with hax | hax
    · rcases List.mem_cons.1 hb with hbx | hbx
      · rw [hax, hbx]
      · exact absurd (hax ▸ h ▸ List.mem_map_of_mem hbx) hn.1
    · rcases List.mem_cons.1 hb with hbx | hbx
      · exact absurd (hbx ▸ h ▸ List.mem_map_of_mem hax) hn.1
      · exact ih hn.2 hax hbx

theorem inv_write {st : St} {sp : Sp} (hi : Inv st sp) {p off : Nat} {bs : List Nat} {r : Rec}
    (hr : r ∈ sp.live) (hp : r.ptr = p) (hlen : off + bs.length ≤ r.data.length) :
    ∃ st', write p off bs st = .ok st' ∧ Inv st' (spStep sp 0 (.write p off bs)) := by
  obtain ⟨c, hc, hd, hh⟩ := hi.live r hr
  rw [hp] at hh
  refine ⟨{ st with heap := upd st.heap p (some (writeAt (r.data ++ brand r.id) off bs)) }, ?_, ?_⟩
  · unfold write
    rw [hh]
    simp only []
    rw [if_pos (by rw [List.length_append]; omega)]
  · have hmap : ((spStep sp 0 (.write p off bs)).live.map (·.ptr)) = sp.live.map (·.ptr) := by
      simp only [spStep, List.map_map]
      apply List.map_congr_left
      intro x _
      simp only [Function.comp]
      split <;> rfl
    have hmem : ∀ x ∈ (spStep sp 0 (.write p off bs)).live, ∃ y ∈ sp.live,
        y.ptr = x.ptr ∧ y.id = x.id ∧
        x.data = if y.ptr = p then overwrite y.data off bs else y.data := by
      intro x hx
      simp only [spStep, List.mem_map] at hx
      obtain ⟨y, hy, rfl⟩ := hx
      by_cases h : y.ptr = p <;> exact ⟨y, hy, by simp [h]⟩
    have hfp : ∀ i c q, st.ck i = some c → q ∈ c.flist → q ≠ p := by
      intro i c q h1 h2 h3
      exact hi.flive i c q h1 h2 r hr (by rw [hp, h3])
    have huniq : ∀ y ∈ sp.live, y.ptr = p → y = r := by
      intro y hy hyp
      exact mem_live_unique hi.nodup hy hr (by rw [hyp, hp])
    constructor
    · exact hi.size
    · exact hi.big
    · exact hi.rng
    · rw [hmap]; exact hi.nodup
    · intro x hx
      obtain ⟨y, hy, hyp, hyi, hdat⟩ := hmem x hx
      obtain ⟨c', hc', hd', hh'⟩ := hi.live y hy
      refine ⟨c', by rw [← hyi]; exact hc', ?_, ?_⟩
      · rw [hdat]; split <;> simp [overwrite_length, hd']
      · by_cases h : y.ptr = p
        · have := huniq y hy h
          subst this
          simp only []
          rw [← hyp, h, upd_self, writeAt_append _ _ _ _ hlen, hdat, if_pos h, hyi]
        · simp only []
          rw [← hyp, upd_other _ _ h, hh', hdat, if_neg h, hyi]
    · exact hi.fnodup
    · intro i c q h1 h2
      simp only []
      rw [upd_other _ _ (hfp i c q h1 h2)]
      exact hi.fblk i c q h1 h2
    · intro i c q h1 h2 x hx
      obtain ⟨y, hy, hyp, _, _⟩ := hmem x hx
      rw [← hyp]
      exact hi.flive i c q h1 h2 y hy
    · exact hi.fdisj
    · exact hi.flu
    · intro i c h1
      rw [hi.usage i c h1]
      unfold Sp.count
      simp only [spStep, List.filter_map, List.length_map]
      congr 2
      apply List.filter_congr
      intro x _
      simp only [Function.comp]
      split <;> rfl
    · intro q b hq
      have hq' : ∃ b', st.heap q = some b' := by
        by_cases h : q = p
        · exact ⟨_, by rw [h]; exact hh⟩
        · simp only [upd_other _ _ h] at hq
          exact ⟨b, hq⟩
      obtain ⟨b', hb'⟩ := hq'
      rcases hi.leak q b' hb' with ⟨x, hx, hxq⟩ | h
      · left
        have : q ∈ (spStep sp 0 (.write p off bs)).live.map (·.ptr) := by
          rw [hmap, ← hxq]; exact List.mem_map_of_mem hx
        obtain ⟨z, hz, hzq⟩ := List.mem_map.1 this
        exact ⟨z, hz, hzq⟩
      · right; exact h

/-! ### New and deleted cookies -/

theorem firstFree_some {ck : Nat → Option Ck} : ∀ {n i k : Nat}, firstFree ck i n = some k →
    i ≤ k ∧ k < i + n ∧ ck k = none ∧ ∀ j, i ≤ j → j < k → (ck j).isSome
  | 0, i, k, h => by simp [firstFree] at h
  | n + 1, i, k, h => by
    unfold firstFree at h
    by_cases hx : (ck i).isNone = true
    · rw [if_pos hx] at h
      injection h with h
      subst h
      exact ⟨Nat.le_refl _, by omega, Option.isNone_iff_eq_none.1 hx, fun j h1 h2 => by omega⟩
    · rw [if_neg hx] at h
      obtain ⟨h1, h2, h3, h4⟩ := firstFree_some h
      refine ⟨by omega, by omega, h3, fun j hj hk => ?_⟩
      by_cases hji : j = i
      · subst hji
        cases hc : ck j with
        | none => rw [hc] at hx; simp at hx
        | some _ => rfl
      · exact h4 j (by omega) hk

theorem firstFree_none {ck : Nat → Option Ck} : ∀ {n i : Nat}, firstFree ck i n = none →
    ∀ j, i ≤ j → j < i + n → (ck j).isSome
  | 0, i, _, j, h1, h2 => by omega
  | n + 1, i, h, j, h1, h2 => by
    unfold firstFree at h
    by_cases hx : (ck i).isNone = true
    · rw [if_pos hx] at h; cases h
    · rw [if_neg hx] at h
      by_cases hji : j = i
      · subst hji
        cases hc : ck j with
        | none => rw [hc] at hx; simp at hx
        | some _ => rfl
      · exact firstFree_none h j (by omega) (by omega)

theorem sizes_none {st : St} {sp : Sp} (hi : Inv st sp) (i : Nat) :
    sp.sizes i = none ↔ st.ck i = none := by
  rw [hi.size i]; cases st.ck i <;> simp

theorem sizes_some {st : St} {sp : Sp} (hi : Inv st sp) {i : Nat} (h : (sp.sizes i).isSome) :
    ∃ c, st.ck i = some c ∧ sp.sizes i = some c.size := by
  rw [hi.size i] at h ⊢
  cases hc : st.ck i with
  | none => rw [hc] at h; simp at h
  | some c => exact ⟨c, rfl, rfl⟩

theorem count_zero {sp : Sp} {i : Nat} (h : ∀ r ∈ sp.live, r.id ≠ i) : sp.count i = 0 := by
  unfold Sp.count
  rw [List.length_eq_zero_iff, List.filter_eq_nil_iff]
  intro a ha
  simpa using h a ha

theorem inv_new {st : St} {sp : Sp} (hi : Inv st sp) {size : Nat} (hsz : 16 ≤ size)
    (hfree : ∃ i, 1 ≤ i ∧ i ≤ 49 ∧ sp.sizes i = none) :
    ∃ st' k, newCookie size st = .ok (st', k) ∧ Inv st' (spStep sp k (.new size)) := by
  unfold newCookie
  cases hk : firstFree st.ck 1 49 with
  | none =>
    exfalso
    obtain ⟨i, h1, h2, h3⟩ := hfree
    have := firstFree_none hk i h1 (by omega)
    rw [(sizes_none hi i).1 h3] at this
    cases this
  | some k =>
    obtain ⟨hk1, hk2, hkn, _⟩ := firstFree_some hk
    refine ⟨_, k, rfl, ?_⟩
    have hlid : ∀ r ∈ sp.live, r.id ≠ k := by
      intro r hr h
      obtain ⟨c, hc, _⟩ := hi.live r hr
      rw [h, hkn] at hc
      cases hc
    have hold : ∀ i c, upd st.ck k (some (⟨size, 0, 0, []⟩ : Ck)) i = some c →
        (i = k ∧ c = ⟨size, 0, 0, []⟩) ∨ (i ≠ k ∧ st.ck i = some c) := by
      intro i c h
      by_cases hik : i = k
      · subst hik
        rw [upd_self] at h
        injection h with h
        exact Or.inl ⟨rfl, h.symm⟩
      · rw [upd_other _ _ hik] at h
        exact Or.inr ⟨hik, h⟩
    constructor
    · intro i
      simp only [spStep]
      by_cases hik : i = k
      · subst hik; rw [if_pos rfl, upd_self]; rfl
      · rw [if_neg hik, upd_other _ _ hik]; exact hi.size i
    · intro i c h
      rcases hold i c h with ⟨_, rfl⟩ | ⟨_, h⟩
      · exact hsz
      · exact hi.big i c h
    · intro i c h
      rcases hold i c h with ⟨e, _⟩ | ⟨_, h⟩
      · rw [e]; exact ⟨hk1, by omega⟩
      · exact hi.rng i c h
    · exact hi.nodup
    · intro r hr
      obtain ⟨c, hc, h⟩ := hi.live r hr
      exact ⟨c, by simp only []; rw [upd_other _ _ (hlid r hr)]; exact hc, h⟩
    · intro i c h
      rcases hold i c h with ⟨_, rfl⟩ | ⟨_, h⟩
      · exact List.nodup_nil
      · exact hi.fnodup i c h
    · intro i c q h hq
      rcases hold i c h with ⟨_, rfl⟩ | ⟨_, h⟩
      · cases hq
      · exact hi.fblk i c q h hq
    · intro i c q h hq
      rcases hold i c h with ⟨_, rfl⟩ | ⟨_, h⟩
      · cases hq
      · exact hi.flive i c q h hq
    · intro i j c d q h1 h2 hq1 hq2
      rcases hold i c h1 with ⟨_, rfl⟩ | ⟨_, h1⟩
      · cases hq1
      · rcases hold j d h2 with ⟨_, rfl⟩ | ⟨_, h2⟩
        · cases hq2
        · exact hi.fdisj i j c d q h1 h2 hq1 hq2
    · intro i c h
      rcases hold i c h with ⟨_, rfl⟩ | ⟨_, h⟩
      · exact ⟨rfl, Nat.zero_le _⟩
      · exact hi.flu i c h
    · intro i c h
      rcases hold i c h with ⟨hik, rfl⟩ | ⟨_, h⟩
      · have : (spStep sp k (.new size)).count i = 0 := by
          apply count_zero; rw [hik]; exact hlid
        rw [this]; rfl
      · exact hi.usage i c h
    · intro p b hb
      rcases hi.leak p b hb with h | ⟨i, c, h, hp⟩
      · exact Or.inl h
      · right
        refine ⟨i, c, ?_, hp⟩
        simp only []
        rw [upd_other _ _ (by intro hik; rw [hik, hkn] at h; cases h)]
        exact h

theorem freeAll_ok : ∀ (l : List Nat) (heap : Nat → Option (List Nat)), l.Nodup →
    (∀ q ∈ l, (heap q).isSome) →
    ∃ h, freeAll heap l = .ok h ∧ (∀ q ∈ l, h q = none) ∧ ∀ q, q ∉ l → h q = heap q
  | [], heap, _, _ => ⟨heap, rfl, fun q hq => (by cases hq), fun _ _ => rfl⟩
  | q :: r, heap, hn, hs => by
    rw [List.nodup_cons] at hn
    obtain ⟨h, h1, h2, h3⟩ := freeAll_ok r (upd heap q none) hn.2 (by
      intro x hx
      rw [upd_other _ _ (by intro h; exact hn.1 (h ▸ hx))]
      exact hs x (List.mem_cons_of_mem _ hx))
    refine ⟨h, ?_, ?_, ?_⟩
    · unfold freeAll
      rw [if_pos (hs q List.mem_cons_self)]
      exact h1
    · intro x hx
      rcases List.mem_cons.1 hx with rfl | hx
      · rw [h3 x hn.1, upd_self]
      · exact h2 x hx
    · intro x hx
      rw [List.mem_cons, not_or] at hx
      rw [h3 x hx.2, upd_other _ _ hx.1]

theorem inv_del {st : St} {sp : Sp} (hi : Inv st sp) {i : Nat} (hs : (sp.sizes i).isSome)
    (hno : ∀ r ∈ sp.live, r.id ≠ i) :
    ∃ st', delCookie i st = .ok st' ∧ Inv st' (spStep sp 0 (.del i)) := by
  obtain ⟨c, hc, _⟩ := sizes_some hi hs
  obtain ⟨h, h1, h2, h3⟩ := freeAll_ok c.flist st.heap (hi.fnodup i c hc) (by
    intro q hq
    obtain ⟨b, hb, _⟩ := hi.fblk i c q hc hq
    rw [hb]; rfl)
  refine ⟨⟨h, upd st.ck i none⟩, ?_, ?_⟩
  · unfold delCookie; rw [hc]; simp only []; rw [h1]
  · have hold : ∀ j d, upd st.ck i none j = some d → j ≠ i ∧ st.ck j = some d := by
      intro j d hj
      by_cases hji : j = i
      · subst hji; rw [upd_self] at hj; cases hj
      · rw [upd_other _ _ hji] at hj; exact ⟨hji, hj⟩
    constructor
    · intro j
      simp only [spStep]
      by_cases hji : j = i
      · subst hji; rw [if_pos rfl, upd_self]; rfl
      · rw [if_neg hji, upd_other _ _ hji]; exact hi.size j
    · intro j d hj; exact hi.big j d (hold j d hj).2
    · intro j d hj; exact hi.rng j d (hold j d hj).2
    · exact hi.nodup
    · intro r hr
      obtain ⟨d, hd, hl, hh⟩ := hi.live r hr
      refine ⟨d, ?_, hl, ?_⟩
      · simp only []; rw [upd_other _ _ (hno r hr)]; exact hd
      · simp only []; rw [h3]
        · exact hh
        · intro hq; exact hi.flive i c r.ptr hc hq r hr rfl
    · intro j d hj; exact hi.fnodup j d (hold j d hj).2
    · intro j d q hj hq
      obtain ⟨hji, hj⟩ := hold j d hj
      simp only []
      rw [h3 q (fun hx => hji (hi.fdisj j i d c q hj hc hq hx))]
      exact hi.fblk j d q hj hq
    · intro j d q hj hq; exact hi.flive j d q (hold j d hj).2 hq
    · intro j k d e q hj hk; exact hi.fdisj j k d e q (hold j d hj).2 (hold k e hk).2
    · intro j d hj; exact hi.flu j d (hold j d hj).2
    · intro j d hj; exact hi.usage j d (hold j d hj).2
    · intro p b hb
      simp only [] at hb
      by_cases hp : p ∈ c.flist
      · rw [h2 p hp] at hb; cases hb
      · rw [h3 p hp] at hb
        rcases hi.leak p b hb with hx | ⟨j, d, hj, hq⟩
        · exact Or.inl hx
        · right
          have hji : j ≠ i := by
            intro e; subst e; rw [hc] at hj; injection hj with hj; subst hj; exact hp hq
          exact ⟨j, d, by simp only []; rw [upd_other _ _ hji]; exact hj, hq⟩

/-! ### Allocation -/

/-- A block that is neither in use nor on a free list becomes a block in use. -/
theorem inv_add {st : St} {sp : Sp} {i p : Nat} {c c' : Ck} {heap0 : Nat → Option (List Nat)}
    (hi : Inv st sp) (hc : st.ck i = some c)
    (hsize : c'.size = c.size) (husage : c'.usage = u32 (c.usage + 1))
    (hflu : c'.flu = c'.flist.length ∧ c'.flu ≤ 429496730) (hsub : ∀ q ∈ c'.flist, q ∈ c.flist)
    (hnd : c'.flist.Nodup) (hp' : p ∉ c'.flist)
    (hlive : ∀ r ∈ sp.live, r.ptr ≠ p)
    (hoth : ∀ j d, j ≠ i → st.ck j = some d → p ∉ d.flist)
    (hcov : ∀ q ∈ c.flist, q = p ∨ q ∈ c'.flist) (hh : heap0 = st.heap) :
    Inv ⟨upd heap0 p (some (List.replicate c.size 0 ++ brand i)), upd st.ck i (some c')⟩
      { sp with live := ⟨p, i, List.replicate ((sp.sizes i).getD 0) 0⟩ :: sp.live } := by
  subst hh
  have hsz : (sp.sizes i).getD 0 = c.size := by rw [hi.size i, hc]; rfl
  rw [hsz]
  have hold : ∀ j d, upd st.ck i (some c') j = some d →
      (j = i ∧ d = c') ∨ (j ≠ i ∧ st.ck j = some d) := by
    intro j d h
    by_cases hji : j = i
    · subst hji; rw [upd_self] at h; injection h with h; exact Or.inl ⟨rfl, h.symm⟩
    · rw [upd_other _ _ hji] at h; exact Or.inr ⟨hji, h⟩
  have hnp : ∀ j d q, upd st.ck i (some c') j = some d → q ∈ d.flist → q ≠ p := by
    intro j d q h hq hqp
    subst hqp
    rcases hold j d h with ⟨_, rfl⟩ | ⟨hji, h⟩
    · exact hp' hq
    · exact hoth j d hji h hq
  constructor
  · intro j
    simp only []
    by_cases hji : j = i
    · subst hji; rw [upd_self, hi.size j, hc]; simp [hsize]
    · rw [upd_other _ _ hji]; exact hi.size j
  · intro j d h
    rcases hold j d h with ⟨_, rfl⟩ | ⟨_, h⟩
    · rw [hsize]; exact hi.big i c hc
    · exact hi.big j d h
  · intro j d h
    rcases hold j d h with ⟨e, _⟩ | ⟨_, h⟩
    · rw [e]; exact hi.rng i c hc
    · exact hi.rng j d h
  · simp only [List.map_cons, List.nodup_cons]
    refine ⟨?_, hi.nodup⟩
    intro h
    obtain ⟨r, hr, h⟩ := List.mem_map.1 h
    exact hlive r hr h
  · intro r hr
    rcases List.mem_cons.1 hr with rfl | hr
    · exact ⟨c', upd_self _ _ _, by simp [hsize], upd_self _ _ _⟩
    · obtain ⟨d, hd, hl, hh⟩ := hi.live r hr
      simp only []
      rw [upd_other _ _ (hlive r hr)]
      by_cases hri : r.id = i
      · rw [hri, hc] at hd
        injection hd with hd
        subst hd
        exact ⟨c', by rw [hri, upd_self], by rw [hsize]; exact hl, hh⟩
      · exact ⟨d, by rw [upd_other _ _ hri]; exact hd, hl, hh⟩
  · intro j d h
    rcases hold j d h with ⟨_, rfl⟩ | ⟨_, h⟩
    · exact hnd
    · exact hi.fnodup j d h
  · intro j d q h hq
    simp only []
    rw [upd_other _ _ (hnp j d q h hq)]
    rcases hold j d h with ⟨_, rfl⟩ | ⟨_, h⟩
    · rw [hsize]; exact hi.fblk i c q hc (hsub q hq)
    · exact hi.fblk j d q h hq
  · intro j d q h hq r hr
    rcases List.mem_cons.1 hr with rfl | hr
    · exact (hnp j d q h hq).symm
    · rcases hold j d h with ⟨_, rfl⟩ | ⟨_, h⟩
      · exact hi.flive i c q hc (hsub q hq) r hr
      · exact hi.flive j d q h hq r hr
  · intro j k d e q h1 h2 hq1 hq2
    rcases hold j d h1 with ⟨ej, ed⟩ | ⟨hj, g1⟩
    · rcases hold k e h2 with ⟨ek, ee⟩ | ⟨hk, g2⟩
      · rw [ej, ek]
      · rw [ed] at hq1
        rw [ej]
        exact hi.fdisj i k c e q hc g2 (hsub q hq1) hq2
    · rcases hold k e h2 with ⟨ek, ee⟩ | ⟨hk, g2⟩
      · rw [ee] at hq2
        rw [ek]
        exact hi.fdisj j i d c q g1 hc hq1 (hsub q hq2)
      · exact hi.fdisj j k d e q g1 g2 hq1 hq2
  · intro j d h
    rcases hold j d h with ⟨_, rfl⟩ | ⟨_, h⟩
    · exact hflu
    · exact hi.flu j d h
  · intro j d h
    unfold Sp.count
    rcases hold j d h with ⟨rfl, rfl⟩ | ⟨hji, h⟩
    · rw [husage, hi.usage j c hc]
      simp only [List.filter_cons, decide_true, if_true, List.length_cons]
      unfold Sp.count u32
      omega
    · rw [hi.usage j d h]
      simp only [List.filter_cons]
      rw [if_neg (by simpa using Ne.symm hji)]
      rfl
  · intro q b hb
    by_cases hqp : q = p
    · exact Or.inl ⟨_, List.mem_cons_self, hqp.symm⟩
    · simp only [upd_other _ _ hqp] at hb
      rcases hi.leak q b hb with ⟨r, hr, hrq⟩ | ⟨j, d, hj, hq⟩
      · exact Or.inl ⟨r, List.mem_cons_of_mem _ hr, hrq⟩
      · right
        by_cases hji : j = i
        · subst hji
          rw [hc] at hj
          injection hj with hj
          subst hj
          exact ⟨j, c', upd_self _ _ _, (hcov q hq).resolve_left hqp⟩
        · exact ⟨j, d, by simp only []; rw [upd_other _ _ hji]; exact hj, hq⟩

theorem inv_malloc {st : St} {sp : Sp} (hi : Inv st sp) {i p : Nat} (hs : (sp.sizes i).isSome)
    (hf : st.heap p = none) :
    ∃ st' q, malloc i p st = .ok (st', q) ∧ (∀ r ∈ sp.live, r.ptr ≠ q) ∧
      Inv st' (spStep sp q (.malloc i p)) := by
  obtain ⟨c, hc, hsz⟩ := sizes_some hi hs
  unfold malloc
  rw [hc]
  simp only []
  obtain ⟨hfl, hfb⟩ := hi.flu i c hc
  by_cases h0 : c.flu = 0
  · rw [if_pos h0, hf]
    simp only [Option.isSome_none, Bool.false_eq_true, if_false]
    unfold finishMalloc
    rw [if_pos (by rw [List.length_replicate]; omega)]
    have hlive : ∀ r ∈ sp.live, r.ptr ≠ p := by
      intro r hr h
      obtain ⟨_, _, _, hh⟩ := hi.live r hr
      rw [h, hf] at hh
      cases hh
    have hnf : ∀ j d, st.ck j = some d → p ∉ d.flist := by
      intro j d hj hp
      obtain ⟨b, hb, _⟩ := hi.fblk j d p hj hp
      rw [hf] at hb
      cases hb
    refine ⟨_, p, rfl, hlive, ?_⟩
    rw [← List.replicate_append_replicate,
      writeAt_end _ _ _ _ (by rw [List.length_replicate]) (by rw [List.length_replicate]; rfl)]
    exact inv_add hi hc rfl rfl ⟨hfl, hfb⟩ (fun q h => h) (hi.fnodup i c hc) (hnf i c hc) hlive
      (fun j d _ h => hnf j d h) (fun q h => Or.inr h) rfl
  · rw [if_neg h0]
    cases hl : c.flist with
    | nil => rw [hl] at hfl; exact absurd hfl h0
    | cons q r =>
      simp only []
      have hqm : q ∈ c.flist := by rw [hl]; exact List.mem_cons_self
      obtain ⟨b, hb, hblen, _⟩ := hi.fblk i c q hc hqm
      rw [hb]
      simp only []
      rw [if_pos (by omega)]
      unfold finishMalloc
      simp only []
      rw [if_pos (by rw [writeAt_length _ _ _ (by rw [List.length_replicate]; omega)]; omega)]
      refine ⟨_, q, rfl, fun x hx => hi.flive i c q hc hqm x hx, ?_⟩
      have hb2 : writeAt b 0 (List.replicate c.size 0)
          = List.replicate c.size 0 ++ b.drop c.size := by
        have := writeAt_front (b.take c.size) (b.drop c.size) (List.replicate c.size 0)
          (by simp; omega)
        rw [List.take_append_drop] at this
        exact this
      rw [hb2, writeAt_end _ _ _ _ (by rw [List.length_replicate])
        (by rw [List.length_drop, hblen, brand_length]; omega)]
      have hn := hi.fnodup i c hc
      rw [hl, List.nodup_cons] at hn
      have hlen : c.flist.length = r.length + 1 := by rw [hl]; rfl
      refine inv_add hi hc rfl rfl ⟨?_, ?_⟩ ?_ hn.2 hn.1 (fun x hx => hi.flive i c q hc hqm x hx)
        ?_ ?_ rfl
      · simp only [u32]; omega
      · simp only [u32]; omega
      · intro x hx; rw [hl]; exact List.mem_cons_of_mem _ hx
      · intro j d hji hj hq; exact hji (hi.fdisj j i d c q hj hc hq hqm)
      · intro x hx; rw [hl] at hx; exact List.mem_cons.1 hx

/-! ### Freeing -/

theorem count_filter {live : List Rec} (hn : (live.map (·.ptr)).Nodup) {a : Rec} (ha : a ∈ live)
    (i : Nat) :
    (live.filter (fun r => r.id = i)).length
      = ((live.filter (fun r => r.ptr ≠ a.ptr)).filter (fun r => r.id = i)).length
        + if a.id = i then 1 else 0 := by
  induction live with
  | nil => cases ha
  | cons x xs ih =>
    simp only [List.map_cons, List.nodup_cons] at hn
    rcases List.mem_cons.1 ha with rfl | ha
    · have : xs.filter (fun r => r.ptr ≠ a.ptr) = xs := by
        rw [List.filter_eq_self]
        intro y hy
        simp only [ne_eq, decide_not, Bool.not_eq_eq_eq_not, Bool.not_true, decide_eq_false_iff_not]
        intro h
        exact hn.1 (h ▸ List.mem_map_of_mem hy)
      rw [List.filter_cons (x := a) (p := fun r => decide (r.ptr ≠ a.ptr))]
      rw [if_neg (by simp), this, List.filter_cons]
      by_cases h : a.id = i
      · rw [if_pos (by simpa using h), if_pos h]; rfl
      · rw [if_neg (by simpa using h), if_neg h]; rfl
    · have hx : x.ptr ≠ a.ptr := fun h => hn.1 (h ▸ List.mem_map_of_mem ha)
      have := ih hn.2 ha
      rw [List.filter_cons (x := x) (p := fun r => decide (r.ptr ≠ a.ptr)), if_pos (by simpa using hx)]
      by_cases h : x.id = i
      · rw [List.filter_cons, List.filter_cons, if_pos (by simpa using h), if_pos (by simpa using h)]
        simp only [List.length_cons]
        omega
      · rw [List.filter_cons, List.filter_cons, if_neg (by simpa using h), if_neg (by simpa using h)]
        exact this

/-- A block in use is given back, to the free list (`keep`) or to the C library. -/
theorem inv_remove {st : St} {sp : Sp} {i p : Nat} {c c' : Ck} {r : Rec} {v : Option (List Nat)}
    {keep : Bool} {links : List Nat}
    (hi : Inv st sp) (hc : st.ck i = some c) (hr : r ∈ sp.live) (hrp : r.ptr = p) (hri : r.id = i)
    (hsize : c'.size = c.size) (husage : c'.usage = u32 (c.usage + 4294967295))
    (hflu : c'.flu = c'.flist.length ∧ c'.flu ≤ 429496730)
    (hfl : c'.flist = if keep then c.flist ++ [p] else c.flist)
    (hv : if keep then ∃ b, v = some b ∧ b.length = c.size + 8 ∧
      b.drop c.size = List.replicate 8 0 else v = none) :
    Inv ⟨upd st.heap p v, upd st.ck i (some c')⟩ (spStep sp 0 (.free i p links)) := by
  have hold : ∀ j d, upd st.ck i (some c') j = some d →
      (j = i ∧ d = c') ∨ (j ≠ i ∧ st.ck j = some d) := by
    intro j d h
    by_cases hji : j = i
    · subst hji; rw [upd_self] at h; injection h with h; exact Or.inl ⟨rfl, h.symm⟩
    · rw [upd_other _ _ hji] at h; exact Or.inr ⟨hji, h⟩
  have hnp : ∀ j d, st.ck j = some d → p ∉ d.flist := by
    intro j d h hq
    exact hi.flive j d p h hq r hr hrp
  have hmem' : ∀ q, q ∈ c'.flist → q ∈ c.flist ∨ (q = p ∧ keep = true) := by
    intro q hq
    rw [hfl] at hq
    cases keep with
    | false => exact Or.inl (by simpa using hq)
    | true =>
      simp only [if_true] at hq
      rcases List.mem_append.1 hq with h | h
      · exact Or.inl h
      · exact Or.inr ⟨by simpa using h, rfl⟩
  have hlive : ∀ x, x ∈ (spStep sp 0 (.free i p links)).live ↔ x ∈ sp.live ∧ x.ptr ≠ p := by
    intro x; simp [spStep]
  constructor
  · intro j
    simp only [spStep]
    by_cases hji : j = i
    · subst hji; rw [upd_self, hi.size j, hc]; simp [hsize]
    · rw [upd_other _ _ hji]; exact hi.size j
  · intro j d h
    rcases hold j d h with ⟨_, rfl⟩ | ⟨_, h⟩
    · rw [hsize]; exact hi.big i c hc
    · exact hi.big j d h
  · intro j d h
    rcases hold j d h with ⟨e, _⟩ | ⟨_, h⟩
    · rw [e]; exact hi.rng i c hc
    · exact hi.rng j d h
  · exact hi.nodup.sublist ((List.filter_sublist).map _)
  · intro x hx
    obtain ⟨hx, hxp⟩ := (hlive x).1 hx
    obtain ⟨d, hd, hl, hh⟩ := hi.live x hx
    simp only []
    rw [upd_other _ _ hxp]
    by_cases hxi : x.id = i
    · rw [hxi, hc] at hd
      injection hd with hd
      subst hd
      exact ⟨c', by rw [hxi, upd_self], by rw [hsize]; exact hl, hh⟩
    · exact ⟨d, by rw [upd_other _ _ hxi]; exact hd, hl, hh⟩
  · intro j d h
    rcases hold j d h with ⟨_, rfl⟩ | ⟨_, h⟩
    · rw [hfl]
      cases keep with
      | false => simpa using hi.fnodup i c hc
      | true =>
        simp only [if_true]
        rw [List.nodup_append]
        refine ⟨hi.fnodup i c hc, by simp, ?_⟩
        intro a ha b hb
        have hb : b = p := by simpa using hb
        subst hb
        intro e
        subst e
        exact hnp i c hc ha
    · exact hi.fnodup j d h
  · intro j d q h hq
    simp only []
    rcases hold j d h with ⟨_, rfl⟩ | ⟨_, h⟩
    · rw [hsize]
      rcases hmem' q hq with hq | ⟨rfl, hk⟩
      · rw [upd_other _ _ (by intro e; subst e; exact hnp i c hc hq)]
        exact hi.fblk i c q hc hq
      · rw [upd_self]
        rw [if_pos hk] at hv
        exact hv
    · rw [upd_other _ _ (by intro e; exact hnp j d ‹_› (e ▸ hq))]
      exact hi.fblk j d q ‹_› hq
  · intro j d q h hq x hx
    obtain ⟨hx, hxp⟩ := (hlive x).1 hx
    rcases hold j d h with ⟨_, rfl⟩ | ⟨_, h⟩
    · rcases hmem' q hq with hq | ⟨rfl, _⟩
      · exact hi.flive i c q hc hq x hx
      · exact hxp
    · exact hi.flive j d q h hq x hx
  · intro j k d e q h1 h2 hq1 hq2
    rcases hold j d h1 with ⟨ej, ed⟩ | ⟨hj, g1⟩
    · rcases hold k e h2 with ⟨ek, ee⟩ | ⟨hk, g2⟩
      · rw [ej, ek]
      · rw [ed] at hq1
        rw [ej]
        rcases hmem' q hq1 with hq1 | ⟨eq, _⟩
        · exact hi.fdisj i k c e q hc g2 hq1 hq2
        · exact absurd (eq ▸ hq2) (hnp k e g2)
    · rcases hold k e h2 with ⟨ek, ee⟩ | ⟨hk, g2⟩
      · rw [ee] at hq2
        rw [ek]
        rcases hmem' q hq2 with hq2 | ⟨eq, _⟩
        · exact hi.fdisj j i d c q g1 hc hq1 hq2
        · exact absurd (eq ▸ hq1) (hnp j d g1)
      · exact hi.fdisj j k d e q g1 g2 hq1 hq2
  · intro j d h
    rcases hold j d h with ⟨_, rfl⟩ | ⟨_, h⟩
    · exact hflu
    · exact hi.flu j d h
  · intro j d h
    have hcount := count_filter hi.nodup hr j
    rw [hrp] at hcount
    rcases hold j d h with ⟨rfl, rfl⟩ | ⟨hji, h⟩
    · rw [if_pos hri] at hcount
      rw [husage, hi.usage j c hc]
      unfold Sp.count
      simp only [spStep]
      rw [hcount]
      unfold u32
      omega
    · rw [if_neg (by rw [hri]; exact Ne.symm hji)] at hcount
      rw [hi.usage j d h]
      unfold Sp.count
      simp only [spStep]
      rw [hcount]
      rfl
  · intro q b hb
    simp only [] at hb
    by_cases hqp : q = p
    · subst hqp
      rw [upd_self] at hb
      cases keep with
      | false =>
        simp only [Bool.false_eq_true, if_false] at hv
        rw [hv] at hb
        cases hb
      | true =>
        right
        exact ⟨i, c', upd_self _ _ _, by rw [hfl]; simp⟩
    · rw [upd_other _ _ hqp] at hb
      rcases hi.leak q b hb with ⟨x, hx, hxq⟩ | ⟨j, d, hj, hq⟩
      · exact Or.inl ⟨x, (hlive x).2 ⟨hx, by rw [hxq]; exact hqp⟩, hxq⟩
      · right
        by_cases hji : j = i
        · subst hji
          rw [hc] at hj
          injection hj with hj
          subst hj
          refine ⟨j, c', upd_self _ _ _, ?_⟩
          rw [hfl]
          cases keep <;> simp [hq]
        · exact ⟨j, d, by simp only []; rw [upd_other _ _ hji]; exact hj, hq⟩

theorem free_branded {dbg : Bool} {st : St} {i p : Nat} {links d : List Nat} {c : Ck}
    (hc : st.ck i = some c) (hh : st.heap p = some (d ++ brand i)) (hd : d.length = c.size) :
    free dbg i p links st = finishFree i p links c (d ++ brand i) st := by
  unfold free
  rw [hc]
  simp only []
  rw [hh]
  simp only []
  have h1 : (d ++ brand i).drop c.size = brand i := List.drop_left' hd
  have h2 : (d ++ brand i).drop (c.size + 6) = (brand i).drop 6 := by
    rw [← List.drop_drop, h1]
  rw [if_neg (by rw [List.length_append, brand_length]; omega), h1, if_neg (by simp), h2,
    if_neg (by rintro ⟨_, h⟩; exact h rfl)]

theorem inv_free {dbg : Bool} {st : St} {sp : Sp} (hi : Inv st sp) {i p : Nat} {links : List Nat}
    (hr : ∃ r ∈ sp.live, r.ptr = p ∧ r.id = i) (hlk : links.length = 16) :
    ∃ st', free dbg i p links st = .ok st' ∧ Inv st' (spStep sp 0 (.free i p links)) := by
  obtain ⟨r, hr, hrp, hri⟩ := hr
  obtain ⟨c, hc, hd, hh⟩ := hi.live r hr
  rw [hri] at hc hh
  rw [hrp] at hh
  rw [free_branded hc hh hd]
  unfold finishFree
  obtain ⟨hfl, hfb⟩ := hi.flu i c hc
  have hbig := hi.big i c hc
  have hus : c.usage < 4294967296 := by rw [hi.usage i c hc]; unfold u32; omega
  by_cases hk : c.flu < 10 ∨ c.flu < c.usage / 10
  · rw [if_pos hk, if_pos (by rw [List.length_append, brand_length]; omega)]
    refine ⟨_, rfl, ?_⟩
    refine inv_remove (keep := true) hi hc hr hrp hri rfl rfl ⟨?_, ?_⟩ rfl ?_
    · simp only [u32, List.length_append, List.length_cons, List.length_nil]; omega
    · simp only [u32]; omega
    · simp only [if_true]
      have e1 : writeAt (r.data ++ brand i) c.size (List.replicate 8 0)
          = r.data ++ List.replicate 8 0 :=
        writeAt_end _ _ _ _ hd (by rw [List.length_replicate]; rfl)
      refine ⟨_, rfl, ?_, ?_⟩
      · rw [e1, writeAt_length _ _ _ (by simp; omega)]
        simp [hd]
      · rw [e1, writeAt_append _ _ _ _ (by omega)]
        exact List.drop_left' (by rw [overwrite_length]; exact hd)
  · rw [if_neg hk]
    refine ⟨_, rfl, ?_⟩
    refine inv_remove (keep := false) hi hc hr hrp hri rfl rfl ⟨?_, ?_⟩ rfl ?_
    · exact hfl
    · exact hfb
    · simp

/-! ### All calls -/

theorem step_ok {dbg : Bool} {st : St} {sp : Sp} (hi : Inv st sp) {op : Op} (hl : Legal sp op)
    (hf : Fresh st op) : ∃ st' res, step dbg st op = .ok (st', res) ∧ Inv st' (spStep sp res op) := by
  cases op with
  | new size => exact inv_new hi hl.1 hl.2
  | del i =>
    obtain ⟨st', h1, h2⟩ := inv_del hi hl.1 hl.2
    exact ⟨st', 0, by simp only [step]; rw [h1]; rfl, h2⟩
  | malloc i p =>
    obtain ⟨st', q, h1, _, h2⟩ := inv_malloc hi hl hf
    exact ⟨st', q, h1, h2⟩
  | free i p links =>
    obtain ⟨st', h1, h2⟩ := inv_free (dbg := dbg) hi hl.1 hl.2
    exact ⟨st', 0, by simp only [step]; rw [h1]; rfl, h2⟩
  | write p off bs =>
    obtain ⟨r, hr, hp, hlen⟩ := hl
    obtain ⟨st', h1, h2⟩ := inv_write hi hr hp hlen
    exact ⟨st', 0, by simp only [step]; rw [h1]; rfl, h2⟩

theorem inv_reach {dbg : Bool} {st : St} {sp : Sp} (h : Reach dbg st sp) : Inv st sp := by
  induction h with
  | init => exact inv_init
  | step _ hl hf hs ih =>
    obtain ⟨st1, r1, h1, h2⟩ := step_ok (dbg := dbg) ih hl hf
    rw [h1] at hs
    injection hs with hs
    injection hs with e1 e2
    subst e1 e2
    exact h2

end Verif.Cookie
