import Verif.CookieLemmas

/-
Properties C100 to C102: the block allocator `olsr_cookie.c`.

`Verif.CookieSpec` holds the view of a client: `Sp` (its blocks with their contents), `Legal` (what
it may do), `spStep` (what a call means to it) and `Reach` (the states reached by allowed calls).
-/

namespace Verif.Cookie

/-- The 16 bytes of a list node in the examples. -/
private def lk : List Nat := List.replicate 16 255

/-- A run of the code. -/
private def runOps (dbg : Bool) : St → List Op → Out (St × Nat)
  | st, [] => .ok (st, 0)
  | st, op :: l =>
    match step dbg st op with
    | .ok (st', _) => runOps dbg st' l
    | o => o

/-- A run of the code beside the client's view, for the examples. -/
private def view (dbg : Bool) : St → Sp → List Op → Option (St × Sp)
  | st, sp, [] => some (st, sp)
  | st, sp, op :: l =>
    match step dbg st op with
    | .ok (st', r) => view dbg st' (spStep sp r op) l
    | _ => none

/-! ### C100: the blocks -/

/-- **C100.** Whatever a client has done before with allowed calls, an allowed call succeeds: it
trips no assertion, does not exit, touches no memory outside the blocks, and leads to a state that
the client's view describes. -/
theorem C100_calls_succeed {dbg : Bool} {st : St} {sp : Sp} (h : Reach dbg st sp) {op : Op}
    (hl : Legal sp op) (hf : Fresh st op) :
    ∃ st' res, step dbg st op = .ok (st', res) ∧ Reach dbg st' (spStep sp res op) := by
  obtain ⟨st', res, h1, _⟩ := step_ok (dbg := dbg) (inv_reach h) hl hf
  exact ⟨st', res, h1, .step h hl hf h1⟩

/-- **C100.** Every block in use holds at every time what the client has stored in it. -/
theorem C100_contents {dbg : Bool} {st : St} {sp : Sp} (h : Reach dbg st sp) {r : Rec}
    (hr : r ∈ sp.live) :
    sp.sizes r.id = some r.data.length ∧
    ∃ b, st.heap r.ptr = some b ∧ b.take r.data.length = r.data := by
  have hi := inv_reach h
  obtain ⟨c, hc, hd, hh⟩ := hi.live r hr
  refine ⟨by rw [hi.size, hc, hd]; rfl, _, hh, ?_⟩
  rw [List.take_left' rfl]

/-- **C100.** A block that `olsr_cookie_malloc` returns, new or from the free list, is not one that
is in use, and all bytes of the size of the cookie are 0. -/
theorem C100_new_block {dbg : Bool} {st st' : St} {sp : Sp} (h : Reach dbg st sp) {i p q n : Nat}
    (hn : sp.sizes i = some n) (hf : st.heap p = none) (hs : malloc i p st = .ok (st', q)) :
    (∀ r ∈ sp.live, r.ptr ≠ q) ∧
    ∃ b, st'.heap q = some b ∧ n ≤ b.length ∧ b.take n = List.replicate n 0 := by
  have hi := inv_reach h
  obtain ⟨st1, q1, h1, h2, h3⟩ := inv_malloc hi (i := i) (p := p) (by rw [hn]; rfl) hf
  rw [h1] at hs
  injection hs with hs
  injection hs with e1 e2
  subst e1 e2
  refine ⟨h2, ?_⟩
  obtain ⟨c, _, _, hh⟩ := h3.live ⟨q1, i, List.replicate ((sp.sizes i).getD 0) 0⟩ List.mem_cons_self
  rw [hn] at hh
  refine ⟨_, hh, ?_, ?_⟩
  · simp
  · exact List.take_left' (by simp)

/-- No two blocks in use have the same address. -/
theorem C100_distinct {dbg : Bool} {st : St} {sp : Sp} (h : Reach dbg st sp) {r r' : Rec}
    (hr : r ∈ sp.live) (hr' : r' ∈ sp.live) (hp : r.ptr = r'.ptr) : r = r' :=
  mem_live_unique (inv_reach h).nodup hr hr' hp

/-- Two cookies, two blocks of one and one of the other, writes, and a free: the freed block with its
old contents and list pointers is handed out again, cleared. -/
private def exOps : List Op :=
  [.new 16, .new 20, .malloc 1 100, .malloc 2 200, .malloc 1 300, .write 100 0 [1, 2, 3],
   .write 200 18 [8, 9], .write 300 15 [7], .free 1 100 lk, .malloc 1 400]

example :
    (view true init ⟨[], fun _ => none⟩ exOps).map (fun x =>
      x.2.live.map (fun r => (r.ptr, r.id, r.data))) =
    some [(100, 1, List.replicate 16 0), (300, 1, List.replicate 15 0 ++ [7]),
      (200, 2, List.replicate 18 0 ++ [8, 9])] := by
  decide +kernel

example :
    (view true init ⟨[], fun _ => none⟩ exOps).map (fun x =>
      (x.1.heap 400, (x.1.heap 100).map (·.take 16))) = some (none, some (List.replicate 16 0)) := by
  decide +kernel

/-! ### C101: the accounts -/

/-- **C101.** The usage count of a cookie is the number of its blocks in use (as a 32 bit number), and
the count of its free list is the length of the list. -/
theorem C101_counts {dbg : Bool} {st : St} {sp : Sp} (h : Reach dbg st sp) {i : Nat} {c : Ck}
    (hc : st.ck i = some c) :
    c.usage = (sp.live.filter (fun r => r.id = i)).length % 4294967296 ∧ c.flu = c.flist.length :=
  ⟨(inv_reach h).usage i c hc, ((inv_reach h).flu i c hc).1⟩

/-- **C101.** No block is lost and none is counted twice: memory taken from the C library is either in
use or on exactly one free list, once. -/
theorem C101_accounted {dbg : Bool} {st : St} {sp : Sp} (h : Reach dbg st sp) (p : Nat) :
    ((st.heap p).isSome ↔
      (∃ r ∈ sp.live, r.ptr = p) ∨ ∃ i c, st.ck i = some c ∧ p ∈ c.flist) ∧
    (∀ i c, st.ck i = some c → p ∈ c.flist →
      c.flist.count p = 1 ∧ (∀ r ∈ sp.live, r.ptr ≠ p) ∧
      ∀ j d, st.ck j = some d → p ∈ d.flist → j = i) := by
  have hi := inv_reach h
  refine ⟨⟨?_, ?_⟩, ?_⟩
  · intro hs
    cases hb : st.heap p with
    | none => rw [hb] at hs; cases hs
    | some b => exact hi.leak p b hb
  · rintro (⟨r, hr, rfl⟩ | ⟨i, c, hc, hp⟩)
    · obtain ⟨_, _, _, hh⟩ := hi.live r hr
      rw [hh]; rfl
    · obtain ⟨b, hb, _⟩ := hi.fblk i c p hc hp
      rw [hb]; rfl
  · intro i c hc hp
    exact ⟨by rw [(hi.fnodup i c hc).count, if_pos hp], hi.flive i c p hc hp,
      fun j d hd hq => hi.fdisj j i d c p hd hc hq hp⟩

/-- **C101.** Freeing keeps the block only while the free list is shorter than 10 or than a tenth of
the blocks in use, and then appends it; otherwise the block goes back to the C library and the free
list stays. -/
theorem C101_free_list {dbg : Bool} {st st' : St} {sp : Sp} (h : Reach dbg st sp) {i p : Nat}
    {links : List Nat} (hl : Legal sp (.free i p links)) (hs : free dbg i p links st = .ok st')
    {c c' : Ck} (hc : st.ck i = some c) (hc' : st'.ck i = some c') :
    (c.flist.length < max 10 (c.usage / 10) → c'.flist = c.flist ++ [p]) ∧
    (max 10 (c.usage / 10) ≤ c.flist.length → c'.flist = c.flist ∧ st'.heap p = none) := by
  have hi := inv_reach h
  obtain ⟨⟨r, hr, hrp, hri⟩, hlk⟩ := hl
  obtain ⟨d, hd, hlen, hh⟩ := hi.live r hr
  rw [hri] at hd hh
  rw [hrp] at hh
  rw [hc] at hd
  injection hd with hd
  subst hd
  obtain ⟨hfl, _⟩ := hi.flu i c hc
  rw [free_branded hc hh hlen] at hs
  unfold finishFree at hs
  by_cases hk : c.flu < 10 ∨ c.flu < c.usage / 10
  · rw [if_pos hk] at hs
    by_cases hx : links.length ≤ (r.data ++ brand i).length
    · rw [if_pos hx] at hs
      injection hs with hs
      subst hs
      simp only [upd_self, Option.some.injEq] at hc'
      subst hc'
      exact ⟨fun _ => rfl, fun hge => (by exfalso; omega)⟩
    · rw [if_neg hx] at hs; cases hs
  · rw [if_neg hk] at hs
    injection hs with hs
    subst hs
    simp only [upd_self, Option.some.injEq] at hc'
    subst hc'
    exact ⟨fun hlt => (by exfalso; omega), fun _ => ⟨rfl, upd_self _ _ _⟩⟩

/-- **C101.** A new cookie gets the smallest id from 1 on that no cookie has; when the 49 ids are in
use, olsrd exits. -/
theorem C101_new_id (size : Nat) (st : St) :
    (∀ st' k, newCookie size st = .ok (st', k) →
      1 ≤ k ∧ k ≤ 49 ∧ st.ck k = none ∧ (∀ j, 1 ≤ j → j < k → (st.ck j).isSome) ∧
      st'.ck k = some ⟨size, 0, 0, []⟩ ∧ (∀ j, j ≠ k → st'.ck j = st.ck j) ∧ st'.heap = st.heap) ∧
    (newCookie size st = .exit ↔ ∀ j, 1 ≤ j → j ≤ 49 → (st.ck j).isSome) := by
  unfold newCookie
  cases hk : firstFree st.ck 1 49 with
  | none =>
    refine ⟨fun st' k h => (by cases h), fun _ j h1 h2 => firstFree_none hk j h1 (by omega),
      fun _ => rfl⟩
  | some k =>
    obtain ⟨h1, h2, h3, h4⟩ := firstFree_some hk
    refine ⟨?_, fun h => (by cases h), ?_⟩
    · intro st' k' h
      simp only [] at h
      injection h with h
      injection h with e1 e2
      subst e1 e2
      exact ⟨h1, by omega, h3, h4, upd_self _ _ _, fun j hj => upd_other _ _ hj, rfl⟩
    · intro h
      have := h k h1 (by omega)
      rw [h3] at this
      cases this

/-- Twelve blocks freed in turn: ten stay on the free list in their order, two are given back. -/
example :
    (view true init ⟨[], fun _ => none⟩
      (.new 16 :: (List.range 12).map (fun k => .malloc 1 (100 + k)) ++
        (List.range 12).map (fun k => .free 1 (100 + k) lk))).map (fun x =>
      ((x.1.ck 1).map (fun c => (c.usage, c.flu, c.flist)), (x.1.heap 109).isSome,
        (x.1.heap 110).isSome, x.2.live.length)) =
    some (some (0, 10, (List.range 10).map (100 + ·)), true, false, 0) := by decide +kernel

/-! ### C102: misuse -/

/-- **C102 (part).** With assertions a client that has written beyond its bytes, so that one of the 8
bytes behind them has changed, is stopped when the block is freed. -/
theorem C102_overrun_partial {st st1 : St} {sp : Sp} (h : Reach true st sp) {r : Rec}
    (hr : r ∈ sp.live) {off : Nat} {bs : List Nat} (hw : write r.ptr off bs st = .ok st1)
    {b b1 : List Nat} (hb : st.heap r.ptr = some b) (hb1 : st1.heap r.ptr = some b1) {k : Nat}
    (hk : r.data.length ≤ k) (hk8 : k < r.data.length + 8) (hdiff : b1[k]? ≠ b[k]?)
    (links : List Nat) : free true r.id r.ptr links st1 = .abort := by
  have hi := inv_reach h
  obtain ⟨c, hc, hd, hh⟩ := hi.live r hr
  rw [hh] at hb
  injection hb with hb
  subst hb
  unfold write at hw
  rw [hh] at hw
  simp only [] at hw
  by_cases hlen : off + bs.length ≤ (r.data ++ brand r.id).length
  · rw [if_pos hlen] at hw
    injection hw with hw
    subst hw
    simp only [upd_self, Option.some.injEq] at hb1
    have hl1 : b1.length = c.size + 8 := by
      rw [← hb1, writeAt_length _ _ _ hlen, List.length_append, brand_length, hd]
    rw [hb1]
    unfold free
    simp only []
    rw [hc]
    simp only []
    rw [upd_self]
    simp only []
    rw [if_neg (by omega)]
    by_cases h1 : (b1.drop c.size).take 6 = (brand r.id).take 6
    · rw [if_neg (by simp [h1])]
      by_cases h2 : (b1.drop (c.size + 6)).take 2 = (brand r.id).drop 6
      · exfalso
        apply hdiff
        have h3 : b1.drop c.size = brand r.id := by
          rw [← List.take_append_drop 6 (b1.drop c.size), h1, List.drop_drop]
          have : (b1.drop (c.size + 6)).take 2 = b1.drop (c.size + 6) :=
            List.take_of_length_le (by rw [List.length_drop]; omega)
          rw [← this, h2, List.take_append_drop]
        have h4 : b1[k]? = (b1.drop c.size)[k - c.size]? := by
          rw [List.getElem?_drop]; congr 1; omega
        rw [h4, h3, List.getElem?_append_right hk, hd]
      · rw [if_pos ⟨trivial, h2⟩]
    · rw [if_pos ⟨trivial, h1⟩]
  · rw [if_neg hlen] at hw; cases hw

/-- **C102 (part).** With assertions a second free of a block is stopped, provided that the first has
put the block on the free list and it has not been handed out again. -/
theorem C102_double_free_partial {st st1 : St} {sp : Sp} (h : Reach true st sp) {i p : Nat}
    {links links' : List Nat} (hl : Legal sp (.free i p links))
    (hs : free true i p links st = .ok st1) (hkept : (st1.heap p).isSome) :
    free true i p links' st1 = .abort := by
  have h1 : Reach true st1 (spStep sp 0 (.free i p links)) :=
    .step h hl trivial (by simp only [step]; rw [hs]; rfl)
  have hi := inv_reach h1
  have hacc := (C101_accounted h1 p).1.1 hkept
  rcases hacc with ⟨r, hr, hrp⟩ | ⟨j, c, hc, hp⟩
  · exfalso
    simp [spStep] at hr
    exact hr.2 hrp
  · -- the block is on the free list of its cookie
    have hji : j = i := by
      by_cases hji : j = i
      · exact hji
      · exfalso
        have hi0 := inv_reach h
        obtain ⟨⟨r, hr, hrp, hri⟩, _⟩ := hl
        obtain ⟨d, hd, hlen, hh⟩ := hi0.live r hr
        rw [hri] at hd hh
        rw [hrp] at hh
        rw [free_branded hd hh hlen] at hs
        have hj0 : st.ck j = some c := by
          unfold finishFree at hs
          split at hs
          · split at hs
            · injection hs with hs
              subst hs
              simpa only [upd_other _ _ hji] using hc
            · cases hs
          · injection hs with hs
            subst hs
            simpa only [upd_other _ _ hji] using hc
        exact hi0.flive j c p hj0 hp r hr hrp
    subst hji
    obtain ⟨b, hb, hblen, hz⟩ := hi.fblk j c p hc hp
    unfold free
    rw [hc]
    simp only []
    rw [hb]
    simp only []
    rw [if_neg (by omega), if_pos ⟨trivial, by rw [hz]; simp [brand]⟩]

/-- **C102 (part).** With assertions freeing a block for another cookie of the same block size is
stopped. -/
theorem C102_wrong_owner_partial {st : St} {sp : Sp} (h : Reach true st sp) {r : Rec}
    (hr : r ∈ sp.live) {j : Nat} (hj : j ≠ r.id) (hsz : sp.sizes j = some r.data.length)
    (links : List Nat) : free true j r.ptr links st = .abort := by
  have hi := inv_reach h
  obtain ⟨c, hc, hd, hh⟩ := hi.live r hr
  obtain ⟨d, hdc, hds⟩ := sizes_some hi (i := j) (by rw [hsz]; rfl)
  rw [hsz] at hds
  injection hds with hds
  have h1 := hi.rng _ _ hc
  have h2 := hi.rng _ _ hdc
  unfold free
  rw [hdc]
  simp only []
  rw [hh]
  simp only []
  have e1 : (r.data ++ brand r.id).drop d.size = brand r.id := List.drop_left' hds
  have e2 : (r.data ++ brand r.id).drop (d.size + 6) = (brand r.id).drop 6 := by
    rw [← List.drop_drop, e1]
  rw [if_neg (by rw [List.length_append, brand_length]; omega), e1, if_neg (by simp [brand]), e2,
    if_pos]
  refine ⟨trivial, ?_⟩
  simp only [brand, List.drop_succ_cons, List.drop_zero, List.take_succ_cons, List.take_zero]
  intro h
  injection h with h _
  apply hj
  omega

/-- **C102, false in general.** With assertions too a double free can go unnoticed: when ten blocks
are already on the free list, the first free gives the block back to the C library, and the second
one reads memory that is not olsrd's any more. -/
theorem C102_double_free_missed :
    runOps true init (.new 16 :: (List.range 11).map (fun k => .malloc 1 (100 + k)) ++
      (List.range 11).map (fun k => .free 1 (100 + k) lk) ++ [.free 1 110 lk])
      matches Out.ub := by decide +kernel

/-- **C102, false in general.** Freeing a block for a cookie with larger blocks reads behind the
block instead of being stopped. -/
theorem C102_wrong_owner_missed :
    runOps true init [.new 16, .new 24, .malloc 1 100, .free 2 100 lk] matches Out.ub := by
  decide +kernel

/-- **C102, false in general.** Without assertions a double free goes through: the block is on the
free list twice and the next two allocations return the same block. -/
theorem C102_no_assertions :
    ((view false init ⟨[], fun _ => none⟩ [.new 16, .malloc 1 100, .malloc 1 101, .free 1 100 lk,
      .free 1 100 lk, .malloc 1 102, .malloc 1 103]).map (fun x => x.2.live.map (·.ptr))) =
      some [100, 100, 101] := by decide +kernel

/-- A block of 16 bytes with an overrun by one byte; a double free; a wrong owner. -/
example :
    runOps true init [.new 16, .malloc 1 100, .write 100 15 [1, 2], .free 1 100 lk] matches Out.abort ∧
    runOps true init [.new 16, .malloc 1 100, .free 1 100 lk, .free 1 100 lk] matches Out.abort ∧
    runOps true init [.new 16, .new 16, .malloc 1 100, .free 2 100 lk] matches Out.abort := by
  decide +kernel

/-- Blocks smaller than a list node (16 bytes with the brand, sizes below 8) would be overrun by the
allocator itself. -/
example : runOps true init [.new 4, .malloc 1 100, .free 1 100 lk] matches Out.ub := by
  decide +kernel

end Verif.Cookie
