import Verif.SockLemmas
/-
The sockets of the scheduler.
-/
namespace Verif.Sock

/-- Whatever happens: an entry is called only between its registration and its
removal, with its own handler, file descriptor and data and for a reason; it is
freed once, after its removal. -/
theorem C118_trace (ss : List Step) (st : St) (h : run ss init = some st) : Trace st.log :=
  (inv_run ss init st inv_init h).tr

/-- The list holds exactly the entries that are registered, in the order of
their registration. -/
theorem C118_list (ss : List Step) (st : St) (h : run ss init = some st) :
    st.ents.Pairwise (fun a b => a.id < b.id) ∧
    ∀ id fd pr imm d, (Ev.added id fd pr imm d ∈ st.log ∧ Ev.removed id ∉ st.log) ↔
      ¬ (pr = none ∧ imm = none) ∧ ∃ f, Ent.mk id fd pr imm d f ∈ st.ents := by
  have inv := inv_run ss init st inv_init h
  refine ⟨inv.sorted, ?_⟩
  intro id fd pr imm d
  constructor
  · rintro ⟨h1, h2⟩
    rcases inv.back _ _ _ _ _ h1 with hr | ⟨e, he, e1, e2, e3, e4, e5⟩
    · exact absurd hr h2
    · constructor
      · rintro ⟨rfl, rfl⟩
        have hd : dead e = true := (dead_iff e).mpr ⟨e3, e4⟩
        exact h2 (e1 ▸ (inv.gone e he hd).1)
      · subst e1 e2 e3 e4 e5
        exact ⟨e.flags, he⟩
  · rintro ⟨hn, f, he⟩
    have hd : dead (Ent.mk id fd pr imm d f) = false := by
      cases hx : dead (Ent.mk id fd pr imm d f) with
      | false => rfl
      | true => exact absurd ((dead_iff _).mp hx) hn
    exact inv.live _ he hd

/-- After `handle_fds` nothing is left of removed entries. -/
theorem C118_cleaned (ss : List Step) (rs : List Rnd) (st : St) (h : run (ss ++ [.handle rs]) init = some st) :
    (∀ e ∈ st.ents, ¬ (e.pr = none ∧ e.imm = none)) ∧ ∀ id, Ev.removed id ∈ st.log → Ev.freed id ∈ st.log := by
  have split : ∀ (a : List Step) (s0 : St), run (a ++ [.handle rs]) s0 = some st →
      ∃ s1 s2, run a s0 = some s1 ∧ rounds rs s1 = some s2 ∧ st = cleanup s2 := by
    intro a
    induction a with
    | nil =>
      intro s0 h0
      unfold run at h0
      rw [List.nil_append] at h0
      simp only [run, step] at h0
      cases hr : rounds rs s0 with
      | none => rw [hr] at h0; cases h0
      | some s2 =>
        rw [hr] at h0
        injection h0 with h0
        exact ⟨s0, s2, rfl, hr, h0.symm⟩
    | cons x a ih =>
      intro s0 h0
      rw [List.cons_append] at h0
      unfold run at h0
      cases hx : step s0 x with
      | none => rw [hx] at h0; cases h0
      | some s1 =>
        rw [hx] at h0
        obtain ⟨t1, t2, g1, g2, g3⟩ := ih s1 h0
        exact ⟨t1, t2, by unfold run; rw [hx]; exact g1, g2, g3⟩
  obtain ⟨s1, s2, h1, h2, h3⟩ := split ss init h
  have inv1 := inv_run ss init s1 inv_init h1
  have inv2 := inv_rounds rs s1 s2 inv1 h2
  have inv := inv_cleanup s2 inv2
  rw [← h3] at inv
  have hall : ∀ e ∈ st.ents, dead e = false := by
    intro e he
    rw [h3] at he
    have := (List.mem_filter.mp he).2
    cases hd : dead e with
    | false => rfl
    | true => rw [hd] at this; cases this
  constructor
  · intro e he hn
    have := (dead_iff e).mpr hn
    rw [hall e he] at this
    cases this
  · intro id hm
    rcases inv.rest id hm with hf | ⟨e, he, rfl⟩
    · exact hf
    · exact absurd hm (inv.live e he (hall e he)).2

private theorem inSet_iff (immediate write : Bool) (ready : Nat → Bool) (l : List Ent) (fd : Nat) :
    inSet immediate (if write then writeBit immediate else readBit immediate) ready l fd = true ↔
      ready fd = true ∧ ∃ e ∈ l, e.fd = fd ∧ Wants immediate write e := by
  have hb : ∀ e : Ent, asks immediate (if write then writeBit immediate else readBit immediate) e = true ↔
      Wants immediate write e := by
    intro e
    unfold asks Wants handler readBit writeBit
    rw [Bool.and_eq_true, Option.isSome_iff_ne_none]
    cases immediate <;> cases write <;> simp
  unfold inSet
  rw [Bool.and_eq_true, List.any_eq_true]
  constructor
  · rintro ⟨⟨e, he, hx⟩, hr⟩
    rw [Bool.and_eq_true, hb, decide_eq_true_eq] at hx
    exact ⟨hr, e, he, hx.2, hx.1⟩
  · rintro ⟨hr, e, he, h1, h2⟩
    refine ⟨⟨e, he, ?_⟩, hr⟩
    rw [Bool.and_eq_true, hb, decide_eq_true_eq]
    exact ⟨h2, h1⟩

/-- One round: no entry is called twice, the calls come in the order of the
registrations; an entry whose wish is fulfilled is called unless it is removed
before its turn; a call tells exactly which of the wishes for its file
descriptor are fulfilled. -/
theorem C118_round (ss : List Step) (st st' : St) (immediate : Bool) (r : Rnd) (h : run ss init = some st)
    (hr : round immediate r st = some st') :
    ∃ new, st'.log = st.log ++ new ∧
      (new.filter isCall).Pairwise (fun a b => about a < about b) ∧
      (∀ e ∈ st.ents, (r.rd e.fd = true ∧ Wants immediate false e) ∨ (r.wr e.fd = true ∧ Wants immediate true e) →
        Ev.removed e.id ∈ new ∨ Called immediate e new) ∧
      (∀ id im g fd d rd wr, Ev.called id im g fd d rd wr ∈ new → im = immediate ∧
        (rd = true ↔ r.rd fd = true ∧ ∃ e ∈ st.ents, e.fd = fd ∧ Wants immediate false e) ∧
        (wr = true ↔ r.wr fd = true ∧ ∃ e ∈ st.ents, e.fd = fd ∧ Wants immediate true e)) := by
  have inv := inv_run ss init st inv_init h
  have bR := inSet_iff immediate false r.rd st.ents
  have bW := inSet_iff immediate true r.wr st.ents
  rw [if_neg (by decide)] at bR
  rw [if_pos rfl] at bW
  unfold round at hr
  split at hr
  · rename_i hnil
    injection hr with hr
    subst hr
    refine ⟨[], by simp, by simp, ?_, ?_⟩
    · intro e he
      rw [hnil] at he
      cases he
    · intro _ _ _ _ _ _ _ hm
      cases hm
  · rename_i e0 l0 hcons
    split at hr
    · obtain ⟨new, w1, w2, w3, w4, w5⟩ := dispatch_ext immediate _ _ r.ops 0 st st' inv
        (by rw [hcons]; exact Nat.succ_pos _) hr
      refine ⟨new, w1, w4, ?_, ?_⟩
      · intro e he hw
        obtain ⟨j, hj⟩ := List.mem_iff_getElem?.mp he
        have hsome : ∃ g, handler immediate e = some g := by
          rcases hw with hw | hw
          · exact Option.ne_none_iff_exists'.mp hw.2.1
          · exact Option.ne_none_iff_exists'.mp hw.2.1
        obtain ⟨g, hg⟩ := hsome
        have hin : (inSet immediate (readBit immediate) r.rd st.ents e.fd ||
            inSet immediate (writeBit immediate) r.wr st.ents e.fd) = true := by
          rw [Bool.or_eq_true, bR, bW]
          rcases hw with hw | hw
          · exact Or.inl ⟨hw.1, e, he, rfl, hw.2⟩
          · exact Or.inr ⟨hw.1, e, he, rfl, hw.2⟩
        rcases w5 j e (Nat.zero_le _) hj g hg hin with hx | hx
        · exact Or.inl hx
        · exact Or.inr ⟨g, _, _, hg, hx⟩
      · intro id im g fd d rd wr hm
        obtain ⟨id', g', fd', d', heq, _, _⟩ := w3 _ hm rfl
        injection heq with e1 e2 e3 e4 e5 e6 e7
        subst e1 e2 e3 e4 e5 e6 e7
        exact ⟨rfl, bR _, bW _⟩
    · cases hr

/-- A call for reading or writing was wished for by the called entry itself, if
no handler adds an entry and no two entries share a file descriptor. -/
theorem C118_own_partial (ss : List Step) (st st' : St) (immediate : Bool) (r : Rnd) (h : run ss init = some st)
    (hr : round immediate r st = some st') (hno : ∀ c ∈ r.ops, NoAdd c)
    (hfd : ∀ a ∈ st.ents, ∀ b ∈ st.ents, a.fd = b.fd → a = b) :
    ∃ new, st'.log = st.log ++ new ∧
      ∀ id g fd d rd wr, Ev.called id immediate g fd d rd wr ∈ new → ∃ e ∈ st.ents, e.id = id ∧ e.fd = fd ∧
        (rd = true → r.rd fd = true ∧ Wants immediate false e) ∧
        (wr = true → r.wr fd = true ∧ Wants immediate true e) := by
  have inv := inv_run ss init st inv_init h
  have bR := inSet_iff immediate false r.rd st.ents
  have bW := inSet_iff immediate true r.wr st.ents
  rw [if_neg (by decide)] at bR
  rw [if_pos rfl] at bW
  unfold round at hr
  split at hr
  · injection hr with hr
    subst hr
    exact ⟨[], by simp, by intro _ _ _ _ _ _ hm; cases hm⟩
  · rename_i e0 l0 hcons
    split at hr
    · obtain ⟨new, w1, w2, w3, w4, w5⟩ := dispatch_ext immediate _ _ r.ops 0 st st' inv
        (by rw [hcons]; exact Nat.succ_pos _) hr
      refine ⟨new, w1, ?_⟩
      intro id g fd d rd wr hm
      obtain ⟨id', g', fd', d', heq, _, hw⟩ := w3 _ hm rfl
      injection heq with e1 e2 e3 e4 e5 e6 e7
      subst e1 e3 e4 e5 e6 e7
      obtain ⟨e, he, h1, h2, h3⟩ := hw hno
      refine ⟨e, he, h1, h2, ?_, ?_⟩
      · intro hrd
        obtain ⟨p1, x, hx, p2, p3⟩ := (bR _).mp hrd
        have : x = e := hfd x hx e he (p2.trans h2.symm)
        subst this
        exact ⟨p1, p3⟩
      · intro hwr
        obtain ⟨p1, x, hx, p2, p3⟩ := (bW _).mp hwr
        have : x = e := hfd x hx e he (p2.trans h2.symm)
        subst this
        exact ⟨p1, p3⟩
    · cases hr

/-- Enabling and disabling change exactly the given flags of exactly the entries
with this file descriptor and these handlers; a new entry has its flags. -/
theorem C118_flags (st : St) (fd : Nat) (pr imm : Option Nat) (f d : Nat) (b : Nat) (hb : b < 32) :
    (∀ (j : Nat) e, st.ents[j]? = some e → ∃ e', (apply st (.enable fd pr imm f)).ents[j]? = some e' ∧
      e'.id = e.id ∧
      e'.flags.testBit b = (e.flags.testBit b || (decide (e.fd = fd ∧ e.pr = pr ∧ e.imm = imm) && f.testBit b))) ∧
    (∀ (j : Nat) e, st.ents[j]? = some e → ∃ e', (apply st (.disable fd pr imm f)).ents[j]? = some e' ∧
      e'.id = e.id ∧
      e'.flags.testBit b = (e.flags.testBit b && !(decide (e.fd = fd ∧ e.pr = pr ∧ e.imm = imm) && f.testBit b))) ∧
    (¬ (pr = none ∧ imm = none) → ∃ e ∈ (apply st (.add (some fd) pr imm d f)).ents,
      e.id = st.next ∧ e.flags.testBit b = f.testBit b) := by
  have hs : ∀ e : Ent, same fd pr imm e = decide (e.fd = fd ∧ e.pr = pr ∧ e.imm = imm) := by
    intro e
    unfold same
    by_cases h1 : e.fd = fd <;> by_cases h2 : e.pr = pr <;> by_cases h3 : e.imm = imm <;> simp [h1, h2, h3]
  refine ⟨?_, ?_, ?_⟩
  · intro j e he
    refine ⟨orFlags fd pr imm f e, by simp [apply, he], ?_, ?_⟩
    · obtain ⟨x, hx⟩ := or_flags fd pr imm f e
      rw [hx]
    · unfold orFlags
      rw [hs]
      cases decide (e.fd = fd ∧ e.pr = pr ∧ e.imm = imm)
      · rw [if_neg (by decide)]; simp
      · rw [if_pos rfl, Nat.testBit_or]; simp
  · intro j e he
    refine ⟨clearFlags fd pr imm f e, by simp [apply, he], ?_, ?_⟩
    · obtain ⟨x, hx⟩ := clear_flags fd pr imm f e
      rw [hx]
    · unfold clearFlags
      rw [hs]
      cases decide (e.fd = fd ∧ e.pr = pr ∧ e.imm = imm)
      · rw [if_neg (by decide)]; simp
      · rw [if_pos rfl, Nat.testBit_and, Nat.testBit_xor, Nat.testBit_two_pow_sub_one, decide_eq_true hb]
        simp
  · intro hn
    unfold apply addSocket
    simp only []
    rw [if_neg hn]
    exact ⟨_, List.mem_append_right _ (List.mem_singleton.mpr rfl), rfl, rfl⟩

/-- Removing takes the oldest entry with this file descriptor and these
handlers, or does nothing. -/
theorem C118_remove (ss : List Step) (st : St) (h : run ss init = some st) (fd : Nat) (pr imm : Option Nat)
    (hn : ¬ (pr = none ∧ imm = none)) :
    ((∀ e ∈ st.ents, ¬ (e.fd = fd ∧ e.pr = pr ∧ e.imm = imm)) → apply st (.remove (some fd) pr imm) = st) ∧
    ∀ e ∈ st.ents, (e.fd = fd ∧ e.pr = pr ∧ e.imm = imm) →
      (∀ x ∈ st.ents, (x.fd = fd ∧ x.pr = pr ∧ x.imm = imm) → e.id ≤ x.id) →
      (apply st (.remove (some fd) pr imm)).log = st.log ++ [.removed e.id] := by
  have inv := inv_run ss init st inv_init h
  have hs : ∀ e : Ent, same fd pr imm e = true ↔ (e.fd = fd ∧ e.pr = pr ∧ e.imm = imm) := by
    intro e
    unfold same
    simp only [Bool.and_eq_true, decide_eq_true_eq]
    exact ⟨fun h => ⟨h.1.1, h.2, h.1.2⟩, fun h => ⟨⟨h.1, h.2.2⟩, h.2.1⟩⟩
  have none_of : ∀ l : List Ent, (∀ e ∈ l, ¬ same fd pr imm e = true) → removeFirst fd pr imm l = none := by
    intro l
    induction l with
    | nil => intro _; rfl
    | cons a l ih =>
      intro hl
      unfold removeFirst
      rw [if_neg (hl a List.mem_cons_self), ih (fun e he => hl e (List.mem_cons_of_mem _ he))]
      rfl
  have some_of : ∀ l : List Ent, l.Pairwise (fun a b => a.id < b.id) → ∀ e ∈ l, same fd pr imm e = true →
      (∀ x ∈ l, same fd pr imm x = true → e.id ≤ x.id) → ∃ l', removeFirst fd pr imm l = some (l', e.id) := by
    intro l
    induction l with
    | nil => intro _ e he; cases he
    | cons a l ih =>
      intro hp e he hse hmin
      have hp2 := List.pairwise_cons.mp hp
      unfold removeFirst
      by_cases ha : same fd pr imm a = true
      · rw [if_pos ha]
        have : e = a := by
          rcases List.mem_cons.mp he with he | he
          · exact he
          · have h1 := hp2.1 e he
            have h2 := hmin a List.mem_cons_self ha
            omega
        rw [this]
        exact ⟨_, rfl⟩
      · rw [if_neg ha]
        rcases List.mem_cons.mp he with rfl | he
        · exact absurd hse ha
        · obtain ⟨l', hl'⟩ := ih hp2.2 e he hse (fun x hx => hmin x (List.mem_cons_of_mem _ hx))
          rw [hl']
          exact ⟨_, rfl⟩
  constructor
  · intro hx
    unfold apply removeSocket
    simp only []
    rw [if_neg hn, none_of st.ents (fun e he hse => hx e he ((hs e).mp hse))]
  · intro e he hm hmin
    obtain ⟨l', hl'⟩ := some_of st.ents inv.sorted e he ((hs e).mpr hm) (fun x hx hsx => hmin x hx ((hs x).mp hsx))
    unfold apply removeSocket
    simp only []
    rw [if_neg hn, hl']

/- Examples. -/

/-- Two entries; the first handler removes itself, registers the same file
descriptor with another handler and data, and is followed by a second entry. -/
def exSteps : List Step :=
  [.act (.add (some 5) (some 1) none 10 1),
   .act (.add (some 6) (some 2) none 20 1)]

/-- Only file descriptor 5 is ready to read. -/
def exRound : Rnd :=
  { rd := fun n => n == 5
    wr := fun _ => false
    ops := [[.remove (some 5) (some 1) none, .add (some 5) (some 3) none 30 1], [], []] }

/-- The old readiness goes to the new entry: a handler registered during the
round is called although nobody has asked `select` about its socket, which may
be another one with the same number. -/
theorem C118_stale_negation :
    (run (exSteps ++ [.poll exRound]) init).map (·.log) =
      some [.added 0 5 (some 1) none 10, .added 1 6 (some 2) none 20,
        .called 0 false 1 5 10 true false, .removed 0, .added 2 5 (some 3) none 30,
        .called 2 false 3 5 30 true false] := by
  decide +kernel

/-- A disabled entry is called when another one shares its file descriptor. -/
theorem C118_disabled_negation :
    (run [.act (.add (some 5) (some 1) none 10 1), .act (.add (some 5) (some 2) none 20 1),
        .act (.disable 5 (some 2) none 1), .poll ⟨fun _ => true, fun _ => false, [[], []]⟩] init).map
      (·.log) =
      some [.added 0 5 (some 1) none 10, .added 1 5 (some 2) none 20,
        .called 0 false 1 5 10 true false, .called 1 false 2 5 20 true false] := by
  decide +kernel

/-- The first handler removes the second entry before its turn. -/
example :
    (run (exSteps ++ [.poll ⟨fun _ => true, fun _ => false, [[.remove (some 6) (some 2) none], []]⟩, .handle []]) init).map (fun s => (s.log, s.ents.map (·.id))) =
      some ([.added 0 5 (some 1) none 10, .added 1 6 (some 2) none 20, .called 0 false 1 5 10 true false,
        .removed 1, .freed 1], [0]) := by decide +kernel

/-- The conditions of `C118_own_partial`. -/
example : ∃ st, run exSteps init = some st ∧
    (∀ a ∈ st.ents, ∀ b ∈ st.ents, a.fd = b.fd → a = b) ∧
    (round false ⟨fun _ => true, fun _ => false, [[], []]⟩ st).isSome = true :=
  ⟨_, rfl, by decide +kernel, by decide +kernel⟩

end Verif.Sock
