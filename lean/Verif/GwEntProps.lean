import Verif.GwEntLemmas
/-!
# C93, C94: how long a gateway is on offer, and which announcements are heard
-/
namespace Verif.GwEnt

open BuildMsg (GwInfo readGw isSmartGw isInetGw)

/-! ## Specification -/

/-- The network of an HNA message that announces a smart gateway. -/
def Smart (v6 : Bool) (addr mask : List Nat) : Prop := isSmartGw v6 addr (Ipcalc.toPrefix mask) mask = true

/-- The network of an HNA message that stands for the Internet without announcing a smart gateway. -/
def Plain (v6 : Bool) (addr mask : List Nat) : Prop :=
  isInetGw v6 addr (Ipcalc.toPrefix mask) = true ∧ ¬ Smart v6 addr mask

/-- The originator stays in the topology set and does not announce a smart gateway with a number newer than
`seq`. -/
def Silent (v6 : Bool) (seq : Nat) : Ev → Prop
  | .net addr mask s _ => Smart v6 addr mask → Seqno.diff s seq ≤ 0
  | .lost => False
  | .tick => True

/-- The event is not a plain announcement of the Internet. -/
def NotPlain (v6 : Bool) : Ev → Prop
  | .net addr mask _ _ => ¬ Plain v6 addr mask
  | _ => True

/-- How many milliseconds pass. -/
def elapsed (l : List Ev) : Nat := l.count .tick

/-- What a gateway offers: IPv4, IPv4 behind NAT, IPv6, and the speeds. -/
structure Offer where
  ipv4 : Bool
  nat : Bool
  ipv6 : Bool
  up : Nat
  down : Nat
  deriving DecidableEq, Repr

/-- The offer of the entry in the tree; `none` if there is no entry or it can not be chosen. -/
def offer (s : St) : Option Offer :=
  match s.ent with
  | none => none
  | some e =>
    if e.info.ipv4 || e.info.ipv6 then some ⟨e.info.ipv4, e.info.nat, e.info.ipv6, e.info.up, e.info.down⟩ else none

/-- What a netmask announces, read off its bytes: the four bytes behind the prefix are zero, the flags, the uplink
and the downlink. -/
def announced (v6 : Bool) (mask : List Nat) : Offer :=
  let p := (Ipcalc.toPrefix mask + 7) / 8
  let f := mask.getD (p + 1) 0
  { ipv4 := f.testBit 1, nat := f.testBit 2, ipv6 := v6 && f.testBit 3
    up := if f.testBit 0 then GwSpeed.decode (mask.getD (p + 2) 0) else 0
    down := if f.testBit 0 then GwSpeed.decode (mask.getD (p + 3) 0) else 0 }

/-- There is something to be had. -/
def Useful (o : Offer) : Prop := (o.ipv4 || o.ipv6) = true ∧ o.up ≠ 0 ∧ o.down ≠ 0

/-- The receiver has not heard of the originator, or the number is newer than the last one heard. -/
def Heard (s : St) (seq : Nat) : Prop := ∀ e, s.ent = some e → 0 < Seqno.diff seq e.seq

/-! ## Helper lemmas -/

private theorem read_announced (v6 : Bool) (mask : List Nat) (old : List Nat × Nat) :
    let i := readGw v6 (Ipcalc.toPrefix mask) mask old
    i.ipv4 = (announced v6 mask).ipv4 ∧ i.nat = (announced v6 mask).nat ∧ i.ipv6 = (announced v6 mask).ipv6 ∧
    i.up = (announced v6 mask).up ∧ i.down = (announced v6 mask).down := ⟨rfl, rfl, rfl, rfl, rfl⟩

private theorem offer_some (s : St) (e : Ent) (h : s.ent = some e) (hf : (e.info.ipv4 || e.info.ipv6) = true) :
    offer s = some ⟨e.info.ipv4, e.info.nat, e.info.ipv6, e.info.up, e.info.down⟩ := by
  unfold offer
  rw [h]
  exact if_pos hf

private theorem offer_none (s : St) (e : Ent) (h : s.ent = some e) (hf : (e.info.ipv4 || e.info.ipv6) = false) :
    offer s = none := by
  unfold offer
  rw [h]
  simp only [hf]
  rfl

private theorem offer_noent (s : St) (h : s.ent = none) : offer s = none := by
  unfold offer
  rw [h]

private theorem net_silent (v6 : Bool) (s : St) (e : Ent) (addr mask : List Nat) (q v : Nat) (h : s.ent = some e)
    (hs : Silent v6 e.seq (.net addr mask q v)) (hn : NotPlain v6 (.net addr mask q v)) :
    step v6 s (.net addr mask q v) = some s := by
  unfold step
  simp only []
  by_cases hg : isSmartGw v6 addr (Ipcalc.toPrefix mask) mask = true
  · rw [if_pos hg, h]
    unfold update
    simp only []
    rw [if_pos (hs hg)]
    simp only [Option.map_some]
    rw [← h]
  · rw [if_neg hg]
    by_cases hi : isInetGw v6 addr (Ipcalc.toPrefix mask) = true
    · exact absurd ⟨hi, hg⟩ hn
    · rw [if_neg hi]

private theorem tick_noplain (v6 : Bool) (s : St) (hp : s.plain = []) :
    tick v6 s = (fireExpire v6 (s.now + 1) s.ent).map fun e => ⟨s.now + 1, fireCleanup (s.now + 1) e, []⟩ := by
  unfold tick
  rw [hp]
  cases fireExpire v6 (s.now + 1) s.ent with
  | none => rfl
  | some e => rfl

/-- The states after an accepted announcement made at `t0`, while the originator is silent. -/
private inductive Phase (v6 : Bool) (seq : Nat) (i : GwInfo) (t0 vtime : Nat) : Nat → St → Prop
  | valid (k : Nat) (h : k < vtime ∨ k = 0) :
    Phase v6 seq i t0 vtime k ⟨t0 + k, some ⟨seq, i, some (t0 + vtime), .none⟩, []⟩
  | over (k : Nat) (hv : v6 = false) (h : vtime ≤ k) (h' : k < vtime + 30000) :
    Phase v6 seq i t0 vtime k ⟨t0 + k, some ⟨seq, noFlags i, none, .due (t0 + vtime + 30000)⟩, []⟩
  | stuck (k : Nat) (hv : v6 = true) (h : vtime ≤ k) :
    Phase v6 seq i t0 vtime k ⟨t0 + k, some ⟨seq, i, none, .none⟩, []⟩

private theorem del4 (now seq : Nat) (i : GwInfo) (x : Option Nat) (h6 : i.ipv6 = false) :
    del false now ⟨seq, i, x, .none⟩ 0 false =
      some (some ⟨seq, noFlags i, none, .due (now + 30000)⟩) := by
  have hf : (takeFlags false 0 i).ipv6 = false := by rw [take4]; exact h6
  have hf' : (takeFlags false 0 i).ipv4 = false := by rw [take4]
  unfold del
  rw [if_neg (by decide), if_pos (Or.inl rfl)]
  unfold finish
  rw [if_pos (Or.inr (by show ((takeFlags false 0 i).ipv4 || (takeFlags false 0 i).ipv6) = false; rw [hf, hf']; rfl)),
    if_neg (by decide), if_neg (by intro h; cases h)]
  show some (some (⟨seq, noFlags (takeFlags false 0 i), none, .due (now + cleanupInterval)⟩ : Ent)) = _
  rw [take_noFlags]
  rfl

private theorem del6 (now seq : Nat) (i : GwInfo) (x : Option Nat) (hf : (i.ipv4 || i.ipv6) = true) :
    del true now ⟨seq, i, x, .none⟩ 0 false = some (some ⟨seq, i, none, .none⟩) := by
  have ht : takeFlags true 0 i = i := by
    unfold takeFlags
    rw [if_neg (by decide), if_neg (by decide), if_neg (by decide)]
  unfold del
  rw [if_neg (by decide), if_pos (Or.inl rfl)]
  unfold finish
  rw [if_neg (by
    show ¬ (0 = forced ∨ ((takeFlags true 0 i).ipv4 || (takeFlags true 0 i).ipv6) = false)
    rw [ht, hf]; decide)]
  show some (some (⟨seq, takeFlags true 0 i, none, .none⟩ : Ent)) = _
  rw [ht]

/-- One tick in a phase. -/
private theorem phase_tick (v6 : Bool) (seq : Nat) (i : GwInfo) (t0 vtime k : Nat) (s : St) (hv : 0 < vtime)
    (hext : i.ext.2 = 0) (h6 : v6 = false → i.ipv6 = false) (hf : v6 = true → (i.ipv4 || i.ipv6) = true)
    (h : Phase v6 seq i t0 vtime k s) :
    (v6 = true ∨ k + 1 < vtime + 30000 → ∃ s', step v6 s .tick = some s' ∧ Phase v6 seq i t0 vtime (k + 1) s') ∧
    (v6 = false → k + 1 = vtime + 30000 → step v6 s .tick = some ⟨t0 + (k + 1), none, []⟩) := by
  cases h with
  | valid h =>
    have hk : k < vtime := by omega
    by_cases hl : k + 1 < vtime
    · have hstep : step v6 ⟨t0 + k, some ⟨seq, i, some (t0 + vtime), .none⟩, []⟩ .tick =
          some ⟨t0 + (k + 1), some ⟨seq, i, some (t0 + vtime), .none⟩, []⟩ := by
        show tick v6 _ = _
        rw [tick_noplain _ _ rfl]
        have hng : ¬ t0 + vtime ≤ t0 + k + 1 := by omega
        simp only [fireExpire, if_neg hng, Option.map_some, fireCleanup]
        rfl
      exact ⟨fun _ => ⟨_, hstep, .valid _ (Or.inl hl)⟩, fun _ hx => by omega⟩
    · have hke : k + 1 = vtime := by omega
      have hdue : t0 + vtime ≤ t0 + k + 1 := by omega
      refine ⟨fun hlim => ?_, fun _ hx => by omega⟩
      cases v6 with
      | false =>
        refine ⟨⟨t0 + (k + 1), some ⟨seq, noFlags i, none, .due (t0 + vtime + 30000)⟩, []⟩, ?_,
          .over _ rfl (by omega) (by omega)⟩
        show tick false _ = _
        rw [tick_noplain _ _ rfl]
        simp only [fireExpire, if_pos hdue]
        rw [hext, del4 _ _ _ _ (h6 rfl)]
        have hnc : ¬ t0 + k + 1 + 30000 ≤ t0 + k + 1 := by omega
        simp only [Option.map_some, fireCleanup, if_neg hnc]
        have he : t0 + k + 1 + 30000 = t0 + vtime + 30000 := by omega
        rw [he]
        rfl
      | true =>
        refine ⟨⟨t0 + (k + 1), some ⟨seq, i, none, .none⟩, []⟩, ?_, .stuck _ rfl (by omega)⟩
        show tick true _ = _
        rw [tick_noplain _ _ rfl]
        simp only [fireExpire, if_pos hdue]
        rw [hext, del6 _ _ _ _ (hf rfl)]
        rfl
  | over hv6 h h' =>
    subst hv6
    refine ⟨fun hlim => ?_, fun _ hx => ?_⟩
    · have hl : k + 1 < vtime + 30000 := by
        rcases hlim with hx | hx
        · cases hx
        · exact hx
      refine ⟨⟨t0 + (k + 1), some ⟨seq, noFlags i, none, .due (t0 + vtime + 30000)⟩, []⟩, ?_,
        .over _ rfl (by omega) hl⟩
      show tick false _ = _
      rw [tick_noplain _ _ rfl]
      have hnc : ¬ t0 + vtime + 30000 ≤ t0 + k + 1 := by omega
      simp only [fireExpire, Option.map_some, fireCleanup, if_neg hnc]
      rfl
    · show tick false _ = _
      rw [tick_noplain _ _ rfl]
      have hc : t0 + vtime + 30000 ≤ t0 + k + 1 := by omega
      simp only [fireExpire, Option.map_some, fireCleanup, if_pos hc]
      rfl
  | stuck hv6 h =>
    subst hv6
    refine ⟨fun _ => ⟨⟨t0 + (k + 1), some ⟨seq, i, none, .none⟩, []⟩, ?_, .stuck _ rfl (by omega)⟩,
      fun hx => by cases hx⟩
    show tick true _ = _
    rw [tick_noplain _ _ rfl]
    rfl

private theorem phase_ent (v6 : Bool) (seq : Nat) (i : GwInfo) (t0 vtime k : Nat) (s : St)
    (h : Phase v6 seq i t0 vtime k s) : ∃ e, s.ent = some e ∧ e.seq = seq := by
  cases h with
  | valid _ => exact ⟨_, rfl, rfl⟩
  | over _ _ _ => exact ⟨_, rfl, rfl⟩
  | stuck _ _ => exact ⟨_, rfl, rfl⟩

private theorem phase_run (v6 : Bool) (seq : Nat) (i : GwInfo) (t0 vtime : Nat) (hv : 0 < vtime)
    (hext : i.ext.2 = 0) (h6 : v6 = false → i.ipv6 = false) (hf : v6 = true → (i.ipv4 || i.ipv6) = true)
    (post : List Ev) : ∀ (k : Nat) (s : St), Phase v6 seq i t0 vtime k s →
      (∀ ev ∈ post, Silent v6 seq ev) → (∀ ev ∈ post, NotPlain v6 ev) →
      (v6 = true ∨ k + elapsed post < vtime + 30000) →
      ∃ s', run v6 post s = some s' ∧ Phase v6 seq i t0 vtime (k + elapsed post) s' := by
  induction post with
  | nil => intro k s h _ _ _; exact ⟨s, rfl, h⟩
  | cons ev l ih =>
    intro k s h hs hn hlim
    have hs' : ∀ x ∈ l, Silent v6 seq x := fun x hx => hs x (List.mem_cons_of_mem _ hx)
    have hn' : ∀ x ∈ l, NotPlain v6 x := fun x hx => hn x (List.mem_cons_of_mem _ hx)
    cases ev with
    | lost => exact absurd (hs .lost (List.mem_cons_self ..)) (fun hx => hx)
    | net addr mask q v =>
      obtain ⟨e, he, hseq⟩ := phase_ent _ _ _ _ _ _ _ h
      have h1 := net_silent v6 s e addr mask q v he (by rw [hseq]; exact hs _ (List.mem_cons_self ..))
        (hn _ (List.mem_cons_self ..))
      have hel : elapsed (Ev.net addr mask q v :: l) = elapsed l := by
        unfold elapsed
        rw [List.count_cons_of_ne (by intro hx; cases hx)]
      rw [hel] at hlim ⊢
      obtain ⟨s', h2, h3⟩ := ih k s h hs' hn' hlim
      exact ⟨s', by simp only [run, h1, Option.bind_some, h2], h3⟩
    | tick =>
      have hel : elapsed (Ev.tick :: l) = elapsed l + 1 := by
        unfold elapsed
        rw [List.count_cons_self]
      rw [hel] at hlim ⊢
      obtain ⟨s1, h1, h2⟩ := (phase_tick v6 seq i t0 vtime k s hv hext h6 hf h).1
        (hlim.imp id (fun hx => (by omega)))
      obtain ⟨s', h3, h4⟩ := ih (k + 1) s1 h2 hs' hn' (hlim.imp id (fun hx => (by omega)))
      have he : k + (elapsed l + 1) = k + 1 + elapsed l := by omega
      rw [he]
      exact ⟨s', by simp only [run, h1, Option.bind_some, h3], h4⟩

private theorem heard_step (v6 : Bool) (s : St) (addr mask : List Nat) (seq vtime : Nat) (h : SInv v6 s)
    (hsm : Smart v6 addr mask) (hh : Heard s seq) :
    ∃ e, e.cleanup ≠ .stale ∧ e.info.ext.2 = 0 ∧
      step v6 s (.net addr mask seq vtime) =
        (accept v6 s.now e mask seq vtime).map fun e' => { s with ent := e' } := by
  unfold step
  simp only []
  rw [if_pos (show isSmartGw v6 addr (Ipcalc.toPrefix mask) mask = true from hsm)]
  cases hE : s.ent with
  | none => exact ⟨blank, (by intro hx; cases hx), rfl, rfl⟩
  | some e =>
    refine ⟨e, (h.ent e hE).notStale, (h.ent e hE).ext, ?_⟩
    unfold update
    simp only []
    have hd : ¬ Seqno.diff seq e.seq ≤ 0 := by have := hh e hE; omega
    rw [if_neg hd]

private theorem heard_valid (v6 : Bool) (s : St) (addr mask : List Nat) (seq vtime : Nat) (h : SInv v6 s)
    (hsm : Smart v6 addr mask) (hh : Heard s seq)
    (hu : (announced v6 mask).up ≠ 0 ∧ (announced v6 mask).down ≠ 0) :
    ∃ i : GwInfo, i.ext.2 = 0 ∧
      (i.ipv4 = (announced v6 mask).ipv4 ∧ i.nat = (announced v6 mask).nat ∧ i.ipv6 = (announced v6 mask).ipv6 ∧
        i.up = (announced v6 mask).up ∧ i.down = (announced v6 mask).down) ∧
      step v6 s (.net addr mask seq vtime) =
        some { s with ent := some ⟨seq, i, some (s.now + vtime), .none⟩ } := by
  obtain ⟨e, h1, h2, h3⟩ := heard_step v6 s addr mask seq vtime h hsm hh
  refine ⟨readGw v6 (Ipcalc.toPrefix mask) mask e.info.ext, ?_, read_announced v6 mask e.info.ext, ?_⟩
  · rcases read_ext v6 mask e.info.ext with hx | hx
    · rw [hx]; exact h2
    · rw [hx]
  · rw [h3]
    unfold accept
    simp only []
    have hz : ¬ ((readGw v6 (Ipcalc.toPrefix mask) mask e.info.ext).up = 0 ∨
        (readGw v6 (Ipcalc.toPrefix mask) mask e.info.ext).down = 0) := by
      intro hx
      rcases hx with hx | hx
      · exact hu.1 hx
      · exact hu.2 hx
    rw [if_neg hz, if_neg h1]
    rfl

/-! ## Theorems -/

/-- **C93, nothing undefined**: whatever is received and however time passes, no freed timer or entry is
touched. -/
theorem C93_defined (v6 : Bool) (evs : List Ev) : ∃ s, run v6 evs init = some s := by
  obtain ⟨s, h, _⟩ := run_ok v6 evs init (init_ok v6)
  exact ⟨s, h⟩

/-- an announcement runs out and is cleaned up -/
example : (run false ([.net [0, 0, 0, 0] [0, 7, 89, 3] 5 62] ++ List.replicate 62 .tick) init).isSome = true := by
  decide +kernel

/-- **C93, on offer while valid (partial)**: an announcement that is heard is on offer, exactly as announced, for
its validity time, as long as the originator neither is lost from the topology nor announces something newer.
Not covered: an originator that has also announced the Internet as a plain network (see
`C93_plain_takes_away`). -/
theorem C93_on_offer_partial (v6 : Bool) (evs : List Ev) (s : St) (h : run v6 evs init = some s)
    (hpl : s.plain = []) (addr mask : List Nat) (seq vtime : Nat) (hsm : Smart v6 addr mask) (hh : Heard s seq)
    (hu : Useful (announced v6 mask)) (hv : 0 < vtime) (post : List Ev) (hs : ∀ ev ∈ post, Silent v6 seq ev)
    (hn : ∀ ev ∈ post, NotPlain v6 ev) (ht : elapsed post < vtime) :
    ∃ s', run v6 (evs ++ .net addr mask seq vtime :: post) init = some s' ∧
      offer s' = some (announced v6 mask) := by
  have hinv := run_inv v6 evs s h
  obtain ⟨i, he, hi, hstep⟩ := heard_valid v6 s addr mask seq vtime hinv hsm hh hu.2
  have hf : (i.ipv4 || i.ipv6) = true := by rw [hi.1, hi.2.2.1]; exact hu.1
  have hP : Phase v6 seq i s.now vtime 0 { s with ent := some ⟨seq, i, some (s.now + vtime), .none⟩ } := by
    have := Phase.valid (v6 := v6) (seq := seq) (i := i) (t0 := s.now) (vtime := vtime) 0 (Or.inr rfl)
    rw [hpl]
    exact this
  obtain ⟨s', h1, h2⟩ := phase_run v6 seq i s.now vtime hv he (fun hx => by subst hx; rw [hi.2.2.1]; rfl) (fun _ => hf)
    post 0 _ hP hs hn (Or.inr (by omega))
  refine ⟨s', ?_, ?_⟩
  · rw [run_append, h]
    show run v6 (Ev.net addr mask seq vtime :: post) s = some s'
    simp only [run, hstep, Option.bind_some]
    exact h1
  · have hoff : ∀ (x : Option Nat) (c : Tm) (n : Nat), offer ⟨n, some ⟨seq, i, x, c⟩, []⟩ = some (announced v6 mask) := by
      intro x c n
      rw [offer_some _ _ rfl hf]
      simp only [hi.1, hi.2.1, hi.2.2.1, hi.2.2.2.1, hi.2.2.2.2]
    cases h2 with
    | valid _ => exact hoff _ _ _
    | over _ hx _ => omega
    | stuck _ hx => omega

/-- 120 kbit/s up, 1000 kbit/s down, IPv4 behind NAT -/
example : Smart false [0, 0, 0, 0] [0, 7, 89, 3] ∧ Useful (announced false [0, 7, 89, 3]) ∧ Heard init 5 ∧
    announced false [0, 7, 89, 3] = ⟨true, true, false, 120, 1000⟩ :=
  ⟨by unfold Smart; decide +kernel, by unfold Useful; decide +kernel, fun e he => (by cases he), by decide +kernel⟩

/-- **C93, no longer on offer (partial)**: in IPv4 the offer ends when the validity time is over.  Not covered:
IPv6 (see `C93_ipv6_never_expires`). -/
theorem C93_expires_partial (evs : List Ev) (s : St) (h : run false evs init = some s)
    (hpl : s.plain = []) (addr mask : List Nat) (seq vtime : Nat) (hsm : Smart false addr mask) (hh : Heard s seq)
    (hu : (announced false mask).up ≠ 0 ∧ (announced false mask).down ≠ 0) (hv : 0 < vtime) (post : List Ev) (hs : ∀ ev ∈ post, Silent false seq ev)
    (hn : ∀ ev ∈ post, NotPlain false ev) (ht : vtime ≤ elapsed post) (ht' : elapsed post < vtime + 30000) :
    ∃ s', run false (evs ++ .net addr mask seq vtime :: post) init = some s' ∧ offer s' = none := by
  have hinv := run_inv false evs s h
  obtain ⟨i, he, hi, hstep⟩ := heard_valid false s addr mask seq vtime hinv hsm hh hu
  have hP : Phase false seq i s.now vtime 0 { s with ent := some ⟨seq, i, some (s.now + vtime), .none⟩ } := by
    have := Phase.valid (v6 := false) (seq := seq) (i := i) (t0 := s.now) (vtime := vtime) 0 (Or.inr rfl)
    rw [hpl]
    exact this
  obtain ⟨s', h1, h2⟩ := phase_run false seq i s.now vtime hv he (fun hx => by rw [hi.2.2.1]; rfl)
    (fun hx => by cases hx) post 0 _ hP hs hn (Or.inr (by omega))
  refine ⟨s', ?_, ?_⟩
  · rw [run_append, h]
    show run false (Ev.net addr mask seq vtime :: post) s = some s'
    simp only [run, hstep, Option.bind_some]
    exact h1
  · cases h2 with
    | valid hx => omega
    | over _ hx _ => exact offer_none _ _ rfl rfl
    | stuck hx _ => cases hx

/-- one announcement with a validity of 62 milliseconds -/
example : (run false ([.net [0, 0, 0, 0] [0, 7, 89, 3] 5 62] ++ List.replicate 61 .tick) init).map offer =
      some (some ⟨true, true, false, 120, 1000⟩) ∧
    (run false ([.net [0, 0, 0, 0] [0, 7, 89, 3] 5 62] ++ List.replicate 62 .tick) init).map offer = some none := by
  decide +kernel

/-- **C93, false in IPv6**: an offer never runs out.  However much time passes, and though the originator
announces nothing newer, the gateway stays on offer: when the validity time is over, the length of the external
prefix, which is never set, is taken for the length of the announced prefix, so nothing is removed, but the timer
is gone. -/
theorem C93_ipv6_never_expires (evs : List Ev) (s : St) (h : run true evs init = some s)
    (hpl : s.plain = []) (addr mask : List Nat) (seq vtime : Nat) (hsm : Smart true addr mask) (hh : Heard s seq)
    (hu : Useful (announced true mask)) (hv : 0 < vtime) (post : List Ev) (hs : ∀ ev ∈ post, Silent true seq ev)
    (hn : ∀ ev ∈ post, NotPlain true ev) :
    ∃ s', run true (evs ++ .net addr mask seq vtime :: post) init = some s' ∧
      offer s' = some (announced true mask) := by
  have hinv := run_inv true evs s h
  obtain ⟨i, he, hi, hstep⟩ := heard_valid true s addr mask seq vtime hinv hsm hh hu.2
  have hf : (i.ipv4 || i.ipv6) = true := by rw [hi.1, hi.2.2.1]; exact hu.1
  have hP : Phase true seq i s.now vtime 0 { s with ent := some ⟨seq, i, some (s.now + vtime), .none⟩ } := by
    have := Phase.valid (v6 := true) (seq := seq) (i := i) (t0 := s.now) (vtime := vtime) 0 (Or.inr rfl)
    rw [hpl]
    exact this
  obtain ⟨s', h1, h2⟩ := phase_run true seq i s.now vtime hv he (fun hx => by cases hx) (fun _ => hf)
    post 0 _ hP hs hn (Or.inl rfl)
  refine ⟨s', ?_, ?_⟩
  · rw [run_append, h]
    show run true (Ev.net addr mask seq vtime :: post) s = some s'
    simp only [run, hstep, Option.bind_some]
    exact h1
  · have hoff : ∀ (x : Option Nat) (c : Tm) (n : Nat), offer ⟨n, some ⟨seq, i, x, c⟩, []⟩ = some (announced true mask) := by
      intro x c n
      rw [offer_some _ _ rfl hf]
      simp only [hi.1, hi.2.1, hi.2.2.1, hi.2.2.2.1, hi.2.2.2.2]
    cases h2 with
    | valid _ => exact hoff _ _ _
    | over hx _ _ => cases hx
    | stuck _ _ => exact hoff _ _ _

/-- an IPv6 gateway with a validity of 62 milliseconds, 200 milliseconds later -/
example : (run true ([.net [0x20, 0, 0, 0, 0, 0, 0, 0, 0, 0, 0, 0, 0, 0, 0, 0]
      [0xe0, 0, 9, 89, 3, 0, 0, 0, 0, 0, 0, 0, 0, 0, 0, 0] 5 62] ++ List.replicate 200 .tick) init).map offer =
    some (some ⟨false, false, true, 120, 1000⟩) := by decide +kernel

/-- **C93, withdrawal**: an announcement with a zero speed removes the gateway at once. -/
theorem C93_withdrawn (v6 : Bool) (evs : List Ev) (s : St) (h : run v6 evs init = some s) (addr mask : List Nat)
    (seq vtime : Nat) (hsm : Smart v6 addr mask) (hh : Heard s seq)
    (hz : (announced v6 mask).up = 0 ∨ (announced v6 mask).down = 0) :
    run v6 (evs ++ [.net addr mask seq vtime]) init = some { s with ent := none } := by
  have hinv := run_inv v6 evs s h
  obtain ⟨e, h1, h2, h3⟩ := heard_step v6 s addr mask seq vtime hinv hsm hh
  rw [run_append, h]
  show (step v6 s (.net addr mask seq vtime)).bind (run v6 []) = _
  rw [h3]
  unfold accept
  simp only []
  have hz' : (readGw v6 (Ipcalc.toPrefix mask) mask e.info.ext).up = 0 ∨
      (readGw v6 (Ipcalc.toPrefix mask) mask e.info.ext).down = 0 := hz
  rw [if_pos hz']
  have hdn := del_now v6 s.now { e with seq := seq, info := readGw v6 (Ipcalc.toPrefix mask) mask e.info.ext } h1
  rw [hdn]
  rfl

example : run false [.net [0, 0, 0, 0] [0, 7, 89, 3] 5 62, .net [0, 0, 0, 0] [0, 7, 0, 0] 6 62] init =
    some init := by decide +kernel

/-- **C93, loss**: when the originator is lost from the topology its gateway is off offer. -/
theorem C93_lost (v6 : Bool) (evs : List Ev) (s : St) (h : run v6 evs init = some s) :
    ∃ s', run v6 (evs ++ [.lost]) init = some s' ∧ offer s' = none := by
  have hinv := run_inv v6 evs s h
  rw [run_append, h]
  cases hE : s.ent with
  | none =>
    refine ⟨s, ?_, offer_noent _ hE⟩
    show (step v6 s .lost).bind (run v6 []) = _
    simp only [step, hE, delEnt, Option.map_some, Option.bind_some, run]
    rw [← hE]
  | some e =>
    have hI := hinv.ent e hE
    show ∃ s', (step v6 s .lost).bind (run v6 []) = some s' ∧ _
    simp only [step, hE, delEnt]
    unfold del
    rw [if_neg (by decide)]
    by_cases hc : e.cleanup = .none ∨ (e.info.ipv4 || e.info.ipv6) = true
    · rw [if_pos hc]
      unfold finish
      rw [if_pos (Or.inl rfl), if_neg (by decide), if_neg (show ¬ e.cleanup = Tm.stale from hI.notStale)]
      exact ⟨_, rfl, offer_none _ _ rfl rfl⟩
    · rw [if_neg hc]
      refine ⟨_, rfl, offer_none _ _ rfl ?_⟩
      cases hx : (e.info.ipv4 || e.info.ipv6) with
      | false => rfl
      | true => exact absurd (Or.inr hx) hc

example : (run true [.net [0x20, 0, 0, 0, 0, 0, 0, 0, 0, 0, 0, 0, 0, 0, 0, 0]
      [0xe0, 0, 9, 89, 3, 0, 0, 0, 0, 0, 0, 0, 0, 0, 0, 0] 5 62, .lost] init).map offer = some none := by decide +kernel

/-- **C93, a plain route that runs out takes the gateway away**: a host announces 0.0.0.0/0 as a plain network for
30 milliseconds, then becomes a smart gateway, announced for 100 milliseconds.  At 30 milliseconds the gateway is
off offer although its announcement is still valid. -/
theorem C93_plain_takes_away :
    ∃ addr plainMask mask vtime post, ¬ Smart false addr plainMask ∧ Smart false addr mask ∧
      Useful (announced false mask) ∧ (∀ ev ∈ post, Silent false 2 ev) ∧ elapsed post < vtime ∧
      (run false ([.net addr plainMask 1 30, .net addr mask 2 vtime] ++ post) init).map offer = some none := by
  refine ⟨[0, 0, 0, 0], [0, 0, 0, 0], [0, 7, 89, 3], 100, List.replicate 30 .tick, ?_, ?_, ?_, ?_, ?_, ?_⟩
  · unfold Smart; decide +kernel
  · unfold Smart; decide +kernel
  · unfold Useful; decide +kernel
  · intro ev hev
    rw [(List.mem_replicate.1 hev).2]
    trivial
  · decide +kernel
  · decide +kernel

/-- Events after which an offer can still stand. -/
private theorem stands (s s' : St) (ev : Ev) (e e' : Ent) (hinv : SInv false s) (hE : s.ent = some e) (hE' : s'.ent = some e')
    (h : step false s ev = some s') (hoff : e'.info.ipv4 = true) :
    (Silent false e.seq ev ∧ e' = e ∧ s'.now = s.now + elapsed [ev] ∧
      (ev = .tick → ∀ t, e.expire = some t → s.now + 1 < t)) ∨
    (∃ addr mask seq vtime, ev = .net addr mask seq vtime ∧ Smart false addr mask ∧ 0 < Seqno.diff seq e.seq ∧
      accept false s.now e mask seq vtime = some (some e') ∧ s'.now = s.now) := by
  cases ev with
  | lost =>
    exfalso
    have hI := hinv.ent e hE
    revert h
    simp only [step, hE, delEnt]
    unfold del
    rw [if_neg (by decide)]
    by_cases hc : e.cleanup = .none ∨ (e.info.ipv4 || e.info.ipv6) = true
    · rw [if_pos hc]
      unfold finish
      rw [if_pos (Or.inl rfl), if_neg (by decide), if_neg (show ¬ e.cleanup = Tm.stale from hI.notStale)]
      intro h
      cases h
      cases hE'
      cases hoff
    · rw [if_neg hc]
      intro h
      cases h
      cases hE'
      apply hc
      right
      show (e.info.ipv4 || e.info.ipv6) = true
      rw [show e.info.ipv4 = true from hoff]
      rfl
  | net addr mask seq vtime =>
    revert h
    unfold step
    simp only []
    by_cases hg : isSmartGw false addr (Ipcalc.toPrefix mask) mask = true
    · rw [if_pos hg, hE]
      unfold update
      simp only []
      by_cases hd : Seqno.diff seq e.seq ≤ 0
      · rw [if_pos hd]
        intro h
        cases h
        cases hE'
        exact Or.inl ⟨fun _ => hd, rfl, by simp [elapsed], fun hx => by cases hx⟩
      · rw [if_neg hd]
        intro h
        right
        cases ha : accept false s.now e mask seq vtime with
        | none => rw [ha] at h; cases h
        | some r =>
          rw [ha] at h
          cases h
          cases hE'
          exact ⟨addr, mask, seq, vtime, rfl, hg, by omega, ha, rfl⟩
    · rw [if_neg hg]
      by_cases hi : isInetGw false addr (Ipcalc.toPrefix mask) = true
      · rw [if_pos hi]
        intro h
        cases h
        have : e' = e := by
          have hx : s.ent = some e' := hE'
          rw [hE] at hx
          cases hx
          rfl
        exact Or.inl ⟨fun hx => absurd hx hg, this, by simp [elapsed], fun hx => by cases hx⟩
      · rw [if_neg hi]
        intro h
        cases h
        rw [hE] at hE'
        cases hE'
        exact Or.inl ⟨fun hx => absurd hx hg, rfl, by simp [elapsed], fun hx => by cases hx⟩
  | tick =>
    left
    have hI := hinv.ent e hE
    have h' : tick false s = some s' := h
    revert h'
    unfold tick
    rw [hE]
    have key : ∀ e1 : Ent, (delPlain false (s.now + 1) (s.plain.filter (fun p => p.2 ≤ s.now + 1))
          (fireCleanup (s.now + 1) (some e1))).map
          (fun e => (⟨s.now + 1, e, s.plain.filter (fun p => ¬ p.2 ≤ s.now + 1)⟩ : St)) = some s' →
        Inv false e1 → e1 = e' ∧ s'.now = s.now + 1 := by
      intro e1 hx hI1
      cases hd : delPlain false (s.now + 1) (s.plain.filter (fun p => p.2 ≤ s.now + 1))
          (fireCleanup (s.now + 1) (some e1)) with
      | none => rw [hd] at hx; cases hx
      | some r =>
        rw [hd] at hx
        cases hx
        have hr : r = some e' := hE'
        subst hr
        have h1 := delPlain4 (s.now + 1) _ (fun p hp => hinv.plain p (List.mem_filter.1 hp).1) e' hoff _ hd
        have h2 := fireCleanup_ok false (s.now + 1) (some e1) (fun x hx => by cases hx; exact hI1) e' h1.2
        cases h2
        exact ⟨rfl, rfl⟩
    unfold fireExpire
    simp only []
    cases hx : e.expire with
    | none =>
      simp only [Option.bind_some]
      intro h'
      obtain ⟨h1, h2⟩ := key e h' hI
      exact ⟨trivial, h1.symm, h2, fun _ t ht => by cases ht⟩
    | some t =>
      simp only []
      by_cases ht : t ≤ s.now + 1
      · rw [if_pos ht, hI.ext]
        obtain ⟨e1, h1, h2, _⟩ := del_later false (s.now + 1) e 0 hI (fun _ => Or.inl rfl)
        rw [h1]
        simp only [Option.bind_some]
        intro h'
        obtain ⟨h3, _⟩ := key e1 h' h2
        subst h3
        have := del4_off _ _ _ h1
        rw [hoff] at this
        cases this
      · rw [if_neg ht]
        simp only [Option.bind_some]
        intro h'
        obtain ⟨h1, h2⟩ := key e h' hI
        exact ⟨trivial, h1.symm, h2, fun _ t' ht' => by cases ht'; omega⟩

private theorem accept_some (now : Nat) (e e' : Ent) (mask : List Nat) (seq vtime : Nat) (hs : e.cleanup ≠ .stale)
    (h : accept false now e mask seq vtime = some (some e')) :
    e'.seq = seq ∧ e'.expire = some (now + vtime) ∧ (announced false mask).up ≠ 0 ∧ (announced false mask).down ≠ 0 ∧
    (e'.info.ipv4 = (announced false mask).ipv4 ∧ e'.info.nat = (announced false mask).nat ∧
      e'.info.ipv6 = (announced false mask).ipv6 ∧ e'.info.up = (announced false mask).up ∧
      e'.info.down = (announced false mask).down) := by
  revert h
  unfold accept
  simp only []
  by_cases hz : (readGw false (Ipcalc.toPrefix mask) mask e.info.ext).up = 0 ∨
      (readGw false (Ipcalc.toPrefix mask) mask e.info.ext).down = 0
  · rw [if_pos hz]
    have hdn := del_now false now { e with seq := seq, info := readGw false (Ipcalc.toPrefix mask) mask e.info.ext } hs
    rw [hdn]
    intro h
    cases h
  · rw [if_neg hz, if_neg hs]
    intro h
    cases h
    exact ⟨rfl, rfl, fun hx => hz (Or.inl hx), fun hx => hz (Or.inr hx), rfl, rfl, rfl, rfl, rfl⟩

private theorem traced (rev : List Ev) : ∀ (s : St) (e : Ent), run false rev.reverse init = some s → s.ent = some e →
    e.info.ipv4 = true →
    ∃ pre addr mask seq vtime post t0, rev.reverse = pre ++ Ev.net addr mask seq vtime :: post ∧ Smart false addr mask ∧
      (∀ ev ∈ post, Silent false seq ev) ∧ (elapsed post < vtime ∨ elapsed post = 0) ∧
      e.seq = seq ∧ s.now = t0 + elapsed post ∧ e.expire = some (t0 + vtime) ∧
      (announced false mask).up ≠ 0 ∧ (announced false mask).down ≠ 0 ∧
      (e.info.ipv4 = (announced false mask).ipv4 ∧ e.info.nat = (announced false mask).nat ∧
        e.info.ipv6 = (announced false mask).ipv6 ∧ e.info.up = (announced false mask).up ∧
        e.info.down = (announced false mask).down) := by
  induction rev with
  | nil => intro s e h hE _; cases h; cases hE
  | cons ev l ih =>
    intro s' e' h hE' hoff
    rw [List.reverse_cons, run_append] at h
    cases hr : run false l.reverse init with
    | none => rw [hr] at h; cases h
    | some s =>
      rw [hr] at h
      have hstep : step false s ev = some s' := by
        have hx : (step false s ev).bind (run false []) = some s' := h
        cases hs : step false s ev with
        | none => rw [hs] at hx; cases hx
        | some y => rw [hs] at hx; exact hx
      have hinv := run_inv false _ s hr
      cases hE : s.ent with
      | none =>
        have : ∃ addr mask seq vtime, ev = .net addr mask seq vtime ∧ Smart false addr mask ∧
            accept false s.now blank mask seq vtime = some (some e') ∧ s'.now = s.now := by
          cases ev with
          | lost =>
            simp only [step, hE, delEnt, Option.map_some] at hstep
            cases hstep
            cases hE'
          | tick =>
            exfalso
            have hx : tick false s = some s' := hstep
            unfold tick at hx
            rw [hE] at hx
            simp only [fireExpire, Option.bind_some, fireCleanup] at hx
            cases hd : delPlain false (s.now + 1) (s.plain.filter (fun p => p.2 ≤ s.now + 1)) none with
            | none => rw [hd] at hx; cases hx
            | some r =>
              rw [hd] at hx
              cases hx
              have hr' : r = some e' := hE'
              subst hr'
              have := delPlain4 (s.now + 1) _ (fun p hp => hinv.plain p (List.mem_filter.1 hp).1) e' hoff none hd
              cases this.2
          | net addr mask seq vtime =>
            revert hstep
            unfold step
            simp only []
            by_cases hg : isSmartGw false addr (Ipcalc.toPrefix mask) mask = true
            · rw [if_pos hg, hE]
              intro hstep
              cases ha : update false s.now none mask seq vtime with
              | none => rw [ha] at hstep; cases hstep
              | some r =>
                rw [ha] at hstep
                cases hstep
                have hr' : r = some e' := hE'
                subst hr'
                exact ⟨addr, mask, seq, vtime, rfl, hg, ha, rfl⟩
            · rw [if_neg hg]
              by_cases hi : isInetGw false addr (Ipcalc.toPrefix mask) = true
              · rw [if_pos hi]
                intro hstep
                cases hstep
                have hx : s.ent = some e' := hE'
                rw [hE] at hx
                cases hx
              · rw [if_neg hi]
                intro hstep
                cases hstep
                rw [hE] at hE'
                cases hE'
        obtain ⟨addr, mask, seq, vtime, rfl, hg, ha, hnow⟩ := this
        obtain ⟨h1, h2, h3, h4, h5⟩ := accept_some s.now blank e' mask seq vtime (by intro hx; cases hx) ha
        refine ⟨l.reverse, addr, mask, seq, vtime, [], s.now, by rw [List.reverse_cons], hg, fun ev hev => (by cases hev),
          Or.inr rfl, h1, hnow, h2, h3, h4, h5⟩
      | some e =>
        rcases stands s s' ev e e' hinv hE hE' hstep hoff with ⟨h1, h2, h3, h4⟩ | ⟨addr, mask, seq, vtime, rfl, hg, hd, ha, hnow⟩
        · subst h2
          obtain ⟨pre, addr, mask, seq, vtime, post, t0, g1, g2, g3, g4, g5, g6, g7, g8, g9, g10⟩ := ih s e' hr hE hoff
          refine ⟨pre, addr, mask, seq, vtime, post ++ [ev], t0, ?_, g2, ?_, ?_, g5, ?_, g7, g8, g9, g10⟩
          · rw [List.reverse_cons, g1]; simp
          · intro x hx
            rcases List.mem_append.1 hx with hx | hx
            · exact g3 x hx
            · rw [List.mem_singleton.1 hx, ← g5]; exact h1
          · have hel : elapsed (post ++ [ev]) = elapsed post + elapsed [ev] := List.count_append
            rw [hel]
            by_cases hev : ev = .tick
            · have := h4 hev _ g7
              subst hev
              have : elapsed [Ev.tick] = 1 := rfl
              omega
            · have : elapsed [ev] = 0 := by
                unfold elapsed
                exact List.count_eq_zero_of_not_mem (by simpa using fun hx => hev hx.symm)
              omega
          · have hel : elapsed (post ++ [ev]) = elapsed post + elapsed [ev] := List.count_append
            omega
        · obtain ⟨h1, h2, h3, h4, h5⟩ := accept_some s.now e e' mask seq vtime (hinv.ent e hE).notStale ha
          refine ⟨l.reverse, addr, mask, seq, vtime, [], s.now, by rw [List.reverse_cons], hg, fun ev hev => (by cases hev),
            Or.inr rfl, h1, hnow, h2, h3, h4, h5⟩

/-- **C93, only what is announced (partial)**: in IPv4, whatever is on offer was announced by the originator in
just this form, nothing newer was announced since, the originator was not lost since, and the announcement is still
valid.  Not covered: IPv6 (see `C93_ipv6_never_expires`). -/
theorem C93_only_announced_partial (evs : List Ev) (s : St) (h : run false evs init = some s) (o : Offer)
    (ho : offer s = some o) :
    ∃ pre addr mask seq vtime post, evs = pre ++ .net addr mask seq vtime :: post ∧ Smart false addr mask ∧
      o = announced false mask ∧ Useful o ∧ (∀ ev ∈ post, Silent false seq ev) ∧
      (elapsed post < vtime ∨ elapsed post = 0) := by
  have hinv := run_inv false evs s h
  cases hE : s.ent with
  | none => rw [offer_noent s hE] at ho; cases ho
  | some e =>
    cases hf : (e.info.ipv4 || e.info.ipv6) with
    | false => rw [offer_none s e hE hf] at ho; cases ho
    | true =>
      have h6 := (hinv.ent e hE).no6 rfl
      have h4 : e.info.ipv4 = true := by
        rw [h6, Bool.or_false] at hf; exact hf
      rw [offer_some s e hE hf] at ho
      cases ho
      have hrev : run false evs.reverse.reverse init = some s := by rw [List.reverse_reverse]; exact h
      obtain ⟨pre, addr, mask, seq, vtime, post, t0, g1, g2, g3, g4, _, _, _, g8, g9, g10⟩ :=
        traced evs.reverse s e hrev hE h4
      rw [List.reverse_reverse] at g1
      refine ⟨pre, addr, mask, seq, vtime, post, g1, g2, ?_, ⟨?_, ?_, ?_⟩, g3, g4⟩
      · rw [g10.1, g10.2.1, g10.2.2.1, g10.2.2.2.1, g10.2.2.2.2]
      · exact hf
      · rw [g10.2.2.2.1]; exact g8
      · rw [g10.2.2.2.2]; exact g9

example : (run false [.net [0, 0, 0, 0] [0, 7, 89, 3] 5 62, .tick, .net [0, 0, 0, 0] [0, 3, 81, 3] 4 90, .tick] init).map offer =
    some (some ⟨true, true, false, 120, 1000⟩) := by decide +kernel

/-- **C94, older announcements change nothing**: an announcement that is not newer than the last one heard leaves
entry and timers as they are. -/
theorem C94_older_ignored (v6 : Bool) (s : St) (e : Ent) (hE : s.ent = some e) (addr mask : List Nat) (seq vtime : Nat)
    (hsm : Smart v6 addr mask) (hd : Seqno.diff seq e.seq ≤ 0) :
    step v6 s (.net addr mask seq vtime) = some s :=
  net_silent v6 s e addr mask seq vtime hE (fun _ => hd) (fun hx => hx.2 hsm)

example : run false [.net [0, 0, 0, 0] [0, 7, 89, 3] 5 62, .net [0, 0, 0, 0] [0, 3, 81, 3] 65535 90] init =
    run false [.net [0, 0, 0, 0] [0, 7, 89, 3] 5 62] init := by decide +kernel

/-- **C94, one gateway per message**: of several gateway networks in one HNA message (same number) only the first
counts, if its speeds are not zero. -/
theorem C94_first_counts (v6 : Bool) (evs : List Ev) (s : St) (h : run v6 evs init = some s)
    (addr mask addr' mask' : List Nat) (seq vtime : Nat) (hsm : Smart v6 addr mask) (hsm' : Smart v6 addr' mask')
    (hh : Heard s seq) (hu : (announced v6 mask).up ≠ 0 ∧ (announced v6 mask).down ≠ 0) :
    run v6 (evs ++ [.net addr mask seq vtime, .net addr' mask' seq vtime]) init =
      run v6 (evs ++ [.net addr mask seq vtime]) init := by
  have hinv := run_inv v6 evs s h
  obtain ⟨i, _, _, hstep⟩ := heard_valid v6 s addr mask seq vtime hinv hsm hh hu
  rw [run_append, run_append, h]
  show (step v6 s (.net addr mask seq vtime)).bind (run v6 [.net addr' mask' seq vtime]) =
    (step v6 s (.net addr mask seq vtime)).bind (run v6 [])
  rw [hstep]
  simp only [Option.bind_some, run]
  rw [C94_older_ignored v6 _ _ rfl addr' mask' seq vtime hsm' (by
    show Seqno.diff seq seq ≤ 0
    unfold Seqno.diff
    simp)]
  rfl

/-- a dual stack gateway that announces ::ffff:0:0/96 with other speeds after 2000::/3 -/
example : (run true [.net [0x20, 0, 0, 0, 0, 0, 0, 0, 0, 0, 0, 0, 0, 0, 0, 0]
      [0xe0, 0, 9, 89, 3, 0, 0, 0, 0, 0, 0, 0, 0, 0, 0, 0] 5 62, .net [0, 0, 0, 0, 0, 0, 0, 0, 0, 0, 255, 255, 0, 0, 0, 0]
      [255, 255, 255, 255, 255, 255, 255, 255, 255, 255, 255, 255, 0, 11, 89, 3] 5 62] init).map offer =
    some (some ⟨false, false, true, 120, 1000⟩) := by decide +kernel

/-- **C94, a restarted gateway is heard again (partial)**: in IPv4 the last number is forgotten, and any number
heard, when 30 seconds have gone by since the announcement ran out, even if the restarted originator keeps sending
older numbers.  Not covered: IPv6 (see `C94_ipv6_never_forgotten`). -/
theorem C94_forgotten_partial (evs : List Ev) (s : St) (h : run false evs init = some s)
    (hpl : s.plain = []) (addr mask : List Nat) (seq vtime : Nat) (hsm : Smart false addr mask) (hh : Heard s seq)
    (hu : (announced false mask).up ≠ 0 ∧ (announced false mask).down ≠ 0) (hv : 0 < vtime) (post : List Ev) (hs : ∀ ev ∈ post, Silent false seq ev)
    (hn : ∀ ev ∈ post, NotPlain false ev) (ht : elapsed post + 1 = vtime + 30000) :
    ∃ s', run false (evs ++ .net addr mask seq vtime :: (post ++ [.tick])) init = some s' ∧ ∀ q, Heard s' q := by
  have hinv := run_inv false evs s h
  obtain ⟨i, he, hi, hstep⟩ := heard_valid false s addr mask seq vtime hinv hsm hh hu
  have h6 : i.ipv6 = false := by rw [hi.2.2.1]; rfl
  have hP : Phase false seq i s.now vtime 0 { s with ent := some ⟨seq, i, some (s.now + vtime), .none⟩ } := by
    have := Phase.valid (v6 := false) (seq := seq) (i := i) (t0 := s.now) (vtime := vtime) 0 (Or.inr rfl)
    rw [hpl]
    exact this
  obtain ⟨s', h1, h2⟩ := phase_run false seq i s.now vtime hv he (fun _ => h6)
    (fun hx => by cases hx) post 0 _ hP hs hn (Or.inr (by omega))
  have h3 := (phase_tick false seq i s.now vtime _ s' hv he (fun _ => h6) (fun hx => by cases hx) h2).2 rfl (by omega)
  refine ⟨⟨s.now + (0 + elapsed post + 1), none, []⟩, ?_, fun q e he => by cases he⟩
  rw [run_append, h]
  show run false (Ev.net addr mask seq vtime :: (post ++ [.tick])) s = _
  simp only [run, hstep, Option.bind_some]
  rw [run_append, h1]
  show (step false s' .tick).bind (run false []) = _
  rw [h3]
  rfl

/-- a gateway that restarts with number 1 after having sent number 5, and sends nothing else -/
example : elapsed (.net [0, 0, 0, 0] [0, 3, 81, 3] 1 62 :: List.replicate 30061 .tick) + 1 = 62 + 30000 ∧
    Silent false 5 (.net [0, 0, 0, 0] [0, 3, 81, 3] 1 62) ∧ NotPlain false (.net [0, 0, 0, 0] [0, 3, 81, 3] 1 62) := by
  refine ⟨?_, fun _ => (by decide), fun hx => hx.2 ?_⟩
  · unfold elapsed
    rw [List.count_cons_of_ne (by intro hx; cases hx), List.count_replicate_self]
  · unfold Smart; decide +kernel

/-- The originator announces nothing newer than `seq`; it may be lost. -/
def NotNewer (v6 : Bool) (seq : Nat) : Ev → Prop
  | .net addr mask s _ => Smart v6 addr mask → Seqno.diff s seq ≤ 0
  | _ => True

private theorem keeps_run (v6 : Bool) (seq u : Nat) (post : List Ev) : ∀ (s : St) (e : Ent), SInv v6 s → s.ent = some e →
    Keeps v6 seq u e → (∀ ev ∈ post, NotNewer v6 seq ev) → u ≤ s.now + 30000 → s.now + elapsed post < u →
    ∃ s' e', run v6 post s = some s' ∧ s'.ent = some e' ∧ Keeps v6 seq u e' := by
  induction post with
  | nil => intro s e _ hE h _ _ _; exact ⟨s, e, rfl, hE, h⟩
  | cons ev l ih =>
    intro s e hI hE h hn hu ht
    have hn' : ∀ x ∈ l, NotNewer v6 seq x := fun x hx => hn x (List.mem_cons_of_mem _ hx)
    obtain ⟨s0, hs0, hI0⟩ := step_ok v6 s ev hI
    have main : ∃ e', s0.ent = some e' ∧ Keeps v6 seq u e' ∧ s0.now = s.now + elapsed [ev] := by
      cases ev with
      | lost =>
        obtain ⟨e1, h1, h2⟩ := keeps_del v6 s.now seq u e forced h hu (fun _ => Or.inr rfl)
        simp only [step, hE, delEnt, h1, Option.map_some] at hs0
        cases hs0
        exact ⟨e1, rfl, h2, rfl⟩
      | tick =>
        have hel : elapsed (Ev.tick :: l) = elapsed l + 1 := by
          unfold elapsed
          rw [List.count_cons_self]
        rw [hel] at ht
        obtain ⟨s1, e1, h1, h2, h3, h4⟩ := keeps_tick v6 s seq u e hE hI.plain h (by omega) (by omega)
        rw [hs0] at h1
        cases h1
        exact ⟨e1, h2, h3, h4⟩
      | net addr mask q v =>
        have h1 := hn _ (List.mem_cons_self ..)
        revert hs0
        unfold step
        simp only []
        by_cases hg : isSmartGw v6 addr (Ipcalc.toPrefix mask) mask = true
        · rw [if_pos hg, hE]
          unfold update
          simp only []
          rw [if_pos (by rw [h.num]; exact h1 hg)]
          intro hs0
          cases hs0
          exact ⟨e, rfl, h, rfl⟩
        · rw [if_neg hg]
          by_cases hi : isInetGw v6 addr (Ipcalc.toPrefix mask) = true
          · rw [if_pos hi]
            intro hs0
            cases hs0
            exact ⟨e, hE, h, rfl⟩
          · rw [if_neg hi]
            intro hs0
            cases hs0
            exact ⟨e, hE, h, rfl⟩
    obtain ⟨e', h1, h2, h3⟩ := main
    have hel : elapsed (ev :: l) = elapsed [ev] + elapsed l := by
      have : elapsed ([ev] ++ l) = elapsed [ev] + elapsed l := List.count_append
      exact this
    obtain ⟨s', e'', h4, h5, h6⟩ := ih s0 e' hI0 h1 h2 hn' (by omega) (by omega)
    exact ⟨s', e'', by simp only [run, hs0, Option.bind_some, h4], h5, h6⟩

/-- **C94, remembered for 30 seconds**: for 30 seconds after an announcement was heard no older one is heard, even
if the announcement runs out, the originator is lost or a plain route of it runs out in between. -/
theorem C94_remembered (v6 : Bool) (evs : List Ev) (s : St) (h : run v6 evs init = some s) (addr mask : List Nat)
    (seq vtime : Nat) (hsm : Smart v6 addr mask) (hh : Heard s seq)
    (hu : (announced v6 mask).up ≠ 0 ∧ (announced v6 mask).down ≠ 0) (post : List Ev)
    (hn : ∀ ev ∈ post, NotNewer v6 seq ev) (ht : elapsed post < 30000) (q : Nat) (hq : Seqno.diff q seq ≤ 0) :
    ∃ s', run v6 (evs ++ .net addr mask seq vtime :: post) init = some s' ∧ ¬ Heard s' q := by
  have hinv := run_inv v6 evs s h
  obtain ⟨i, he, hi, hstep⟩ := heard_valid v6 s addr mask seq vtime hinv hsm hh hu
  obtain ⟨s1, hs1, hI1⟩ := step_ok v6 s (.net addr mask seq vtime) hinv
  rw [hstep] at hs1
  cases hs1
  have hK : Keeps v6 seq (s.now + 30000) ⟨seq, i, some (s.now + vtime), .none⟩ :=
    ⟨hI1.ent _ rfl, rfl, fun t ht => by cases ht⟩
  obtain ⟨s', e', h1, h2, h3⟩ := keeps_run v6 seq (s.now + 30000) post _ _ hI1 rfl hK hn (Nat.le_refl _)
    (by show s.now + elapsed post < s.now + 30000; omega)
  refine ⟨s', ?_, ?_⟩
  · rw [run_append, h]
    show run v6 (Ev.net addr mask seq vtime :: post) s = some s'
    simp only [run, hstep, Option.bind_some]
    exact h1
  · intro hx
    have := hx e' h2
    rw [h3.num] at this
    omega

/-- lost and announced again with an older number -/
example : (run false [.net [0, 0, 0, 0] [0, 7, 89, 3] 5 62, .lost, .tick, .net [0, 0, 0, 0] [0, 3, 81, 3] 4 90] init).map offer =
    some none := by decide +kernel

/-- **C94, false in IPv6**: the last number is never forgotten, so a restarted gateway that begins with an older
number is not heard, however long it takes, until the topology set loses it or its numbers catch up. -/
theorem C94_ipv6_never_forgotten (evs : List Ev) (s : St) (h : run true evs init = some s)
    (hpl : s.plain = []) (addr mask : List Nat) (seq vtime : Nat) (hsm : Smart true addr mask) (hh : Heard s seq)
    (hu : Useful (announced true mask)) (hv : 0 < vtime) (post : List Ev) (hs : ∀ ev ∈ post, Silent true seq ev)
    (hn : ∀ ev ∈ post, NotPlain true ev) (q : Nat) (hq : Seqno.diff q seq ≤ 0) :
    ∃ s', run true (evs ++ .net addr mask seq vtime :: post) init = some s' ∧ ¬ Heard s' q := by
  have hinv := run_inv true evs s h
  obtain ⟨i, he, hi, hstep⟩ := heard_valid true s addr mask seq vtime hinv hsm hh hu.2
  have hf : (i.ipv4 || i.ipv6) = true := by rw [hi.1, hi.2.2.1]; exact hu.1
  have hP : Phase true seq i s.now vtime 0 { s with ent := some ⟨seq, i, some (s.now + vtime), .none⟩ } := by
    have := Phase.valid (v6 := true) (seq := seq) (i := i) (t0 := s.now) (vtime := vtime) 0 (Or.inr rfl)
    rw [hpl]
    exact this
  obtain ⟨s', h1, h2⟩ := phase_run true seq i s.now vtime hv he (fun hx => by cases hx) (fun _ => hf)
    post 0 _ hP hs hn (Or.inl rfl)
  refine ⟨s', ?_, ?_⟩
  · rw [run_append, h]
    show run true (Ev.net addr mask seq vtime :: post) s = some s'
    simp only [run, hstep, Option.bind_some]
    exact h1
  · intro hx
    obtain ⟨e, h3, h4⟩ := phase_ent _ _ _ _ _ _ _ h2
    have := hx e h3
    rw [h4] at this
    omega

/-- 250 milliseconds after an announcement for 62 milliseconds with number 5 -/
example : (run true ([.net [0x20, 0, 0, 0, 0, 0, 0, 0, 0, 0, 0, 0, 0, 0, 0, 0]
      [0xe0, 0, 9, 89, 3, 0, 0, 0, 0, 0, 0, 0, 0, 0, 0, 0] 5 62] ++ List.replicate 250 .tick) init).map
      (fun s => s.ent.map (fun e => (e.seq, e.expire))) = some (some (5, none)) := by
  decide +kernel

end Verif.GwEnt
