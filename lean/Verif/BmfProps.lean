import Verif.BmfModel
import Verif.HistProps

/-!
# C72, C73, C74 — what the multicast plug-in passes on, to whom, and how often
-/

namespace Verif.Bmf

open Verif.SchedTime

/-! ## Specification -/

/-- The neighbour of a link should get the packet on an interface: it is reached through
that interface, is none of the nodes that already have the packet, and (with link quality
in use) the link works, is the best one to that neighbour, and the previous forwarder
has no cheaper direct edge to it. -/
def Wanted (env : Env) (intf : Nat) (src by_ to_ : Option Nat) (l : Link) : Prop :=
  l.localAddr = intf ∧
  (∀ x, src = some x ∨ by_ = some x ∨ to_ = some x → env.main l.nbAddr ≠ env.main x) ∧
  (env.lq = true → l.cost < 4194304 ∧ l.best = true ∧
    ∀ f c, by_ = some f → env.edge (env.main f) (env.main l.nbAddr) = some c →
      (env.costTo f).getD 4194304 + l.cost ≤ c)

/-- the part of the receive buffer a call passes on ends before `n` -/
def Send.within (n : Nat) : Send → Prop
  | .raw _ s l => s + l ≤ n
  | .encap _ s l _ => s + l ≤ n
  | .deliver s l => s + l ≤ n

/-! ## Helpers -/

private theorem isNode_false (env : Env) (a : Nat) (o : Option Nat) :
    isNode env a o = false ↔ ∀ x, o = some x → env.main a ≠ env.main x := by
  cases o with
  | none => exact ⟨fun _ x h => (by cases h), fun _ => rfl⟩
  | some y =>
    unfold isNode
    rw [beq_eq_false_iff_ne]
    exact ⟨fun h x hx => by cases hx; exact h, fun h => h y rfl⟩

private theorem skip_iff (env : Env) (intf : Nat) (src by_ to_ : Option Nat) (l : Link)
    (hc : ∀ f c, env.costTo f = some c → c ≤ 4194304) :
    skip env intf src by_ to_ l = false ↔ Wanted env intf src by_ to_ l := by
  unfold skip Wanted
  simp only [Bool.or_eq_false_iff, isNode_false, Bool.and_eq_false_iff, bne_eq_false_iff_eq]
  have hd : l.cost < broken → (directBetter env l by_ = false ↔
      ∀ f c, by_ = some f → env.edge (env.main f) (env.main l.nbAddr) = some c →
        (env.costTo f).getD 4194304 + l.cost ≤ c) := by
    intro hl
    unfold broken at hl
    cases by_ with
    | none => exact ⟨fun _ f c h => (by cases h), fun _ => rfl⟩
    | some f =>
      have hp : (env.costTo f).getD 4194304 ≤ 4194304 := by
        cases h : env.costTo f with
        | none => exact Nat.le_refl _
        | some c => exact hc f c h
      cases he : env.edge (env.main f) (env.main l.nbAddr) with
      | none =>
        have e : directBetter env l (some f) = false := by unfold directBetter; simp only [he]
        refine ⟨fun _ f' c h h2 => ?_, fun _ => e⟩
        cases h
        rw [he] at h2; cases h2
      | some c =>
        have e : directBetter env l (some f) = decide (c < (env.costTo f).getD 4194304 + l.cost) := by
          unfold directBetter previousEtx broken
          simp only [he]
          rw [Nat.mod_eq_of_lt (by omega)]
        rw [e, decide_eq_false_iff_not]
        constructor
        · intro h f' c' hf h2
          cases hf
          rw [he] at h2
          cases h2
          omega
        · intro h
          have := h f c rfl he
          omega
  constructor
  · rintro ⟨⟨⟨⟨h1, h2⟩, h3⟩, h4⟩, h5⟩
    refine ⟨h1, ?_, ?_⟩
    · intro x hx
      rcases hx with hx | hx | hx
      · exact h2 x hx
      · exact h3 x hx
      · exact h4 x hx
    · intro hlq
      rw [hlq] at h5
      rcases h5 with h5 | ⟨⟨h6, h7⟩, h8⟩
      · cases h5
      · simp only [decide_eq_false_iff_not] at h6
        unfold broken at h6
        refine ⟨by omega, by simpa using h7, (hd (by unfold broken; omega)).1 h8⟩
  · rintro ⟨h1, h2, h3⟩
    refine ⟨⟨⟨⟨h1, fun x hx => h2 x (Or.inl hx)⟩, fun x hx => h2 x (Or.inr (Or.inl hx))⟩,
      fun x hx => h2 x (Or.inr (Or.inr hx))⟩, ?_⟩
    cases hlq : env.lq with
    | false => exact Or.inl rfl
    | true =>
      obtain ⟨a, b, c⟩ := h3 hlq
      refine Or.inr ⟨⟨?_, by rw [b]; rfl⟩, (hd a).2 c⟩
      simp only [decide_eq_false_iff_not]
      unfold broken
      omega

/-- the state of the search after the links `E` were taken -/
private def Inv (env : Env) (E : List Link) (f : Found) : Prop :=
  f.bad = false ∧ f.n = E.length ∧ f.arr.length = 10 ∧
  (∀ i, i < E.length → i < env.fanOut → f.arr[i]? = (E[i]?).map some) ∧
  (env.lq = false → f.best = E.head?) ∧
  (env.lq = true → (E = [] → f.bestEtx = broken) ∧ (∀ l ∈ E, f.bestEtx ≤ l.cost) ∧
    f.bestEtx ≤ broken ∧ (E ≠ [] → ∃ b ∈ E, f.best = some b ∧ b.cost = f.bestEtx))

private theorem inv_take {env : Env} {E : List Link} {f : Found} (hf : env.fanOut ≤ 10) (h : Inv env E f) (l : Link)
    (hl : env.lq = true → l.cost < broken) : Inv env (E ++ [l]) (take env f l) := by
  obtain ⟨h1, h2, h3, h4, h5, h6⟩ := h
  unfold take
  refine ⟨?_, ?_, ?_, ?_, ?_, ?_⟩
  · show (f.bad || (decide (f.n < env.fanOut) && decide (10 ≤ f.n))) = false
    rw [h1, Bool.false_or, Bool.and_eq_false_iff, decide_eq_false_iff_not, decide_eq_false_iff_not]
    omega
  · show f.n + 1 = _
    rw [List.length_append, h2]; rfl
  · show (if f.n < env.fanOut then f.arr.set f.n (some l) else f.arr).length = 10
    split
    · rw [List.length_set, h3]
    · exact h3
  · intro i hi hif
    show (if f.n < env.fanOut then f.arr.set f.n (some l) else f.arr)[i]? = _
    rw [List.length_append, List.length_singleton] at hi
    by_cases hin : i < E.length
    · rw [List.getElem?_append_left hin, ← h4 i hin hif]
      split
      · rw [List.getElem?_set_ne (by omega)]
      · rfl
    · have : i = E.length := by omega
      subst this
      rw [if_pos (by omega), h2, List.getElem?_set_self (by omega), List.getElem?_append_right (Nat.le_refl _),
        Nat.sub_self]
      rfl
  · intro hlq
    have h := h5 hlq
    show (if (if env.lq = true then decide (l.cost < f.bestEtx) else f.best.isNone) = true then some l else f.best) = _
    rw [hlq, if_neg (by decide : ¬ (false = true)), h]
    cases E with
    | nil => rfl
    | cons e E => rfl
  · intro hlq
    obtain ⟨a, b, c, d⟩ := h6 hlq
    have hb : (if env.lq = true then decide (l.cost < f.bestEtx) else f.best.isNone) = decide (l.cost < f.bestEtx) := by
      rw [if_pos hlq]
    show (E ++ [l] = [] → (if (if env.lq = true then decide (l.cost < f.bestEtx) else f.best.isNone) = true then l.cost else f.bestEtx) = broken) ∧
      (∀ x ∈ E ++ [l], (if (if env.lq = true then decide (l.cost < f.bestEtx) else f.best.isNone) = true then l.cost else f.bestEtx) ≤ x.cost) ∧
      (if (if env.lq = true then decide (l.cost < f.bestEtx) else f.best.isNone) = true then l.cost else f.bestEtx) ≤ broken ∧
      (E ++ [l] ≠ [] → ∃ y ∈ E ++ [l], (if (if env.lq = true then decide (l.cost < f.bestEtx) else f.best.isNone) = true then some l else f.best) = some y ∧
        y.cost = (if (if env.lq = true then decide (l.cost < f.bestEtx) else f.best.isNone) = true then l.cost else f.bestEtx))
    rw [hb]
    have hl' := hl hlq
    by_cases hx : l.cost < f.bestEtx
    · have : decide (l.cost < f.bestEtx) = true := decide_eq_true hx
      rw [this, if_pos rfl, if_pos rfl]
      refine ⟨fun h => absurd h (by simp), ?_, by omega, fun _ => ⟨l, by simp, rfl, rfl⟩⟩
      intro x hxm
      rw [List.mem_append, List.mem_singleton] at hxm
      rcases hxm with hxm | rfl
      · have := b x hxm; omega
      · exact Nat.le_refl _
    · have : decide (l.cost < f.bestEtx) = false := decide_eq_false hx
      rw [this, if_neg (by decide), if_neg (by decide)]
      refine ⟨fun h => absurd h (by simp), ?_, c, fun _ => ?_⟩
      · intro x hxm
        rw [List.mem_append, List.mem_singleton] at hxm
        rcases hxm with hxm | rfl
        · exact b x hxm
        · omega
      · have hne : E ≠ [] := by
          intro hE
          have hbest := a hE
          -- nothing taken yet: the bound is still `broken`
          omega
        obtain ⟨y, hy, e1, e2⟩ := d hne
        exact ⟨y, by simp [hy], e1, e2⟩


private theorem find_inv {env : Env} (hf : env.fanOut ≤ 10) (intf : Nat) (src by_ to_ : Option Nat) :
    Inv env (env.links.filter fun l => !skip env intf src by_ to_ l) (find env intf src by_ to_) := by
  have key : ∀ (ls E : List Link) (f : Found), Inv env E f →
      Inv env (E ++ ls.filter fun l => !skip env intf src by_ to_ l)
        (ls.foldl (fun f l => if skip env intf src by_ to_ l then f else take env f l) f) := by
    intro ls
    induction ls with
    | nil => intro E f h; rw [List.filter_nil, List.append_nil]; exact h
    | cons l ls ih =>
      intro E f h
      rw [List.foldl_cons]
      by_cases hs : skip env intf src by_ to_ l = true
      · rw [if_pos hs, List.filter_cons_of_neg (by simp [hs])]
        exact ih E f h
      · rw [if_neg hs, List.filter_cons_of_pos (by simp [hs])]
        have e : E ++ l :: ls.filter (fun l => !skip env intf src by_ to_ l) =
          (E ++ [l]) ++ ls.filter (fun l => !skip env intf src by_ to_ l) := by simp
        rw [e]
        refine ih _ _ (inv_take hf h l ?_)
        intro hlq
        have hs' : skip env intf src by_ to_ l = false := by simpa using hs
        unfold skip at hs'
        simp only [Bool.or_eq_false_iff, Bool.and_eq_false_iff, hlq] at hs'
        rcases hs'.2 with h | h
        · cases h
        · have := h.1.1
          simp only [decide_eq_false_iff_not] at this
          omega
  have := key env.links [] ⟨List.replicate 10 none, none, broken, 0, false⟩
    ⟨rfl, rfl, by rw [List.length_replicate], fun i h => absurd h (Nat.not_lt_zero i), fun _ => rfl,
      fun _ => ⟨fun _ => rfl, fun l h => (by cases h), Nat.le_refl _, fun h => absurd rfl h⟩⟩
  rw [List.nil_append] at this
  exact this

private theorem unicasts_eq : ∀ (E : List Link) (arr : List (Option Link)),
    (∀ i, i < E.length → arr[i]? = (E[i]?).map some) →
    unicasts arr E.length = .to (E.map fun l => .unicast l.nbAddr) := by
  intro E
  induction E with
  | nil => intro arr _; cases arr with
    | nil => rfl
    | cons a as => cases a <;> rfl
  | cons e E ih =>
    intro arr h
    cases arr with
    | nil => have := h 0 (by simp); cases this
    | cons a as =>
      have h0 := h 0 (by simp)
      simp only [List.getElem?_cons_zero, Option.map_some, Option.some.injEq] at h0
      subst h0
      have := ih as (fun i hi => by
        have := h (i + 1) (by simp; omega)
        simpa using this)
      rw [List.length_cons, unicasts, this]
      rfl

private theorem mem_sublist {α : Type} {p : α → Bool} {l : List α} : ∀ x, x ∈ l.filter p → x ∈ l :=
  fun _ h => (List.mem_filter.1 h).1

/-! ## C73 -/

open Classical in
/-- Who gets an encapsulated packet on an OLSR interface, when the fan-out limit is within
the range the option parser accepts.  `E` is the list of the links whose neighbours should
get it, in the order of the link set.  Nobody to serve: nothing is sent.  With the
promiscuous mechanism one unicast goes out, to a neighbour of `E` of least cost (with link
quality; the first one without).  With the broadcast mechanism and no more than the limit,
every one gets a unicast.  Else the configured number of broadcasts goes out.  In no case is
a null pointer followed or the array left. -/
theorem C73_destinations (env : Env) (intf : Nat) (src by_ to_ : Option Nat)
    (hf : 1 ≤ env.fanOut ∧ env.fanOut ≤ 10) (hc : ∀ f c, env.costTo f = some c → c ≤ 4194304)
    (E : List Link) (hE : E = env.links.filter fun l => decide (Wanted env intf src by_ to_ l)) :
    (E = [] → choose env intf src by_ to_ = .to []) ∧
    (E ≠ [] → env.promiscuous = true →
      ∃ b ∈ E, choose env intf src by_ to_ = .to [.unicast b.nbAddr] ∧
        (env.lq = true → ∀ l ∈ E, b.cost ≤ l.cost) ∧ (env.lq = false → E.head? = some b)) ∧
    (env.promiscuous = false → E.length ≤ env.fanOut →
      choose env intf src by_ to_ = .to (E.map fun l => .unicast l.nbAddr)) ∧
    (env.promiscuous = false → env.fanOut < E.length →
      choose env intf src by_ to_ = .to (List.replicate env.retransmit .broadcast)) := by
  have hEE : E = env.links.filter fun l => !skip env intf src by_ to_ l := by
    rw [hE]
    apply List.filter_congr
    intro l _
    have := skip_iff env intf src by_ to_ l hc
    by_cases hw : Wanted env intf src by_ to_ l
    · rw [decide_eq_true hw, this.2 hw]; rfl
    · rw [decide_eq_false hw]
      cases hs : skip env intf src by_ to_ l with
      | true => rfl
      | false => exact absurd (this.1 hs) hw
  have hinv := find_inv hf.2 intf src by_ to_
  rw [← hEE] at hinv
  obtain ⟨h1, h2, h3, h4, h5, h6⟩ := hinv
  clear hEE hE
  unfold choose
  simp only [h1, h2]
  rw [if_neg (by decide)]
  have hnil : E = [] ↔ E.length = 0 := List.length_eq_zero_iff.symm
  refine ⟨fun h => ?_, fun hne hp => ?_, fun hp hl => ?_, fun hp hl => ?_⟩
  · rw [if_pos (hnil.1 h)]
  · rw [if_neg (fun h => hne (hnil.2 h)), if_pos hp]
    have hbest : ∃ b ∈ E, (find env intf src by_ to_).best = some b ∧
        (env.lq = true → ∀ l ∈ E, b.cost ≤ l.cost) ∧ (env.lq = false → E.head? = some b) := by
      cases hlq : env.lq with
      | true =>
        obtain ⟨_, a, _, d⟩ := h6 hlq
        obtain ⟨b, hb, e1, e2⟩ := d hne
        exact ⟨b, hb, e1, fun _ l hl => by rw [e2]; exact a l hl, fun h => by cases h⟩
      | false =>
        have := h5 hlq
        cases E with
        | nil => exact absurd rfl hne
        | cons b E => exact ⟨b, List.mem_cons_self .., this, fun h => (by cases h), fun _ => rfl⟩
    obtain ⟨b, hb, e1, e2⟩ := hbest
    refine ⟨b, hb, ?_, e2⟩
    rw [e1]
    cases ha : (find env intf src by_ to_).arr with
    | nil => rw [ha] at h3; cases h3
    | cons x xs =>
      rw [List.set_cons_zero]
      cases xs with
      | nil => rfl
      | cons y ys => cases y <;> rfl
  · by_cases hz : E.length = 0
    · rw [if_pos hz, hnil.2 hz]; rfl
    · rw [if_neg hz, if_neg (by rw [hp]; decide), if_pos hl]
      exact unicasts_eq E _ (fun i hi => h4 i hi (by omega))
  · rw [if_neg (by omega), if_neg (by rw [hp]; decide), if_neg (by omega)]

/-- a node with four links on interface 1: one leads back to the forwarder, to one the
forwarder has a cheaper edge, one is broken, two remain -/
def exEnv : Env :=
  ⟨id, [⟨1, 11, 1500, true⟩, ⟨1, 12, 1024, true⟩, ⟨1, 13, 4194304, true⟩, ⟨1, 14, 2000, true⟩,
        ⟨1, 15, 1024, true⟩, ⟨2, 16, 1024, true⟩],
    fun x => if x = 12 then some 1024 else none,
    fun a b => if a = 12 ∧ b = 14 then some 1500 else none, true, 2, true, 3⟩

example : choose exEnv 1 (some 99) (some 12) none = .to [.unicast 15] ∧
    choose { exEnv with promiscuous := false } 1 (some 99) (some 12) none = .to [.unicast 11, .unicast 15] ∧
    choose { exEnv with promiscuous := false, fanOut := 1 } 1 (some 99) (some 12) none
      = .to [.broadcast, .broadcast, .broadcast] := by decide

/-- The limit of ten is needed: with a larger one the eleventh neighbour is stored behind
the array. -/
theorem C73_limit_needed :
    ∃ env : Env, env.fanOut = 11 ∧ env.links.length = 11 ∧ choose env 1 none none none = .outside :=
  ⟨⟨id, (List.range 11).map fun i => ⟨1, 20 + i, 1024, true⟩, fun _ => none, fun _ _ => none, false, 11, false, 1⟩,
    rfl, by decide, by decide⟩

/-- A captured packet that is passed on at all: it goes unencapsulated to exactly the
interfaces without OLSR other than the one it came in on (two interfaces have
different numbers). -/
theorem C73_captured_raw (env : Env) (ifs : List Intf) (intf : Intf) (nb mpr out : Bool) (buf : List Nat)
    (hd : ∀ w ∈ ifs, w.id = intf.id → w = intf) (i : Nat) :
    (∃ s l, Send.raw i s l ∈ captureLoop env ifs intf nb mpr out buf) ↔
      ∃ w ∈ ifs, w.id = i ∧ w.olsr = false ∧ i ≠ intf.id := by
  unfold captureLoop
  simp only [List.mem_flatMap]
  constructor
  · rintro ⟨s, l, w, hw, h⟩
    refine ⟨w, hw, ?_⟩
    revert h
    cases ho : intf.olsr <;> cases hwo : w.olsr <;> simp only [Bool.and_true, Bool.and_false, Bool.not_true,
      Bool.not_false, Bool.false_eq_true, if_true, if_false, Bool.and_self]
    · by_cases hi : (intf.id == w.id) = true
      · rw [if_pos hi]; intro h; cases h
      · rw [if_neg hi]
        intro h
        simp only [List.mem_singleton, Send.raw.injEq] at h
        refine ⟨h.1.symm, trivial, ?_⟩
        intro hh
        exact hi (by rw [beq_iff_eq, ← hh, h.1])
    · intro h; simp at h
    · intro h
      simp only [List.mem_singleton, Send.raw.injEq] at h
      refine ⟨h.1.symm, trivial, ?_⟩
      intro hh
      have := hd w hw (by rw [← h.1, hh])
      rw [this, ho] at hwo
      cases hwo
    · intro h
      split at h
      · cases h
      · split at h
        · cases h
        · simp at h
  · rintro ⟨w, hw, hi, ho, hne⟩
    refine ⟨8, totLen buf 8, w, hw, ?_⟩
    rw [ho]
    cases intf.olsr
    · have : (intf.id == w.id) = false := by
        rw [beq_eq_false_iff_ne]; intro h; exact hne (by rw [← hi, h])
      rw [this, hi]
      simp
    · simp [hi]

/-- A captured packet that is passed on at all goes encapsulated to an OLSR interface
unless it came in on an OLSR interface and either its sender is a neighbour that did not
choose this node as relay, or it is an outgoing packet of that very interface. -/
theorem C73_captured_encap (env : Env) (ifs : List Intf) (intf : Intf) (nb mpr out : Bool) (buf : List Nat)
    (i : Nat) :
    (∃ s l c, Send.encap i s l c ∈ captureLoop env ifs intf nb mpr out buf) ↔
      ∃ w ∈ ifs, w.id = i ∧ w.olsr = true ∧
        ¬ (intf.olsr = true ∧ ((nb = true ∧ mpr = false) ∨ (out = true ∧ i = intf.id))) := by
  unfold captureLoop
  simp only [List.mem_flatMap]
  constructor
  · rintro ⟨s, l, c, w, hw, h⟩
    refine ⟨w, hw, ?_⟩
    revert h
    cases ho : intf.olsr <;> cases hwo : w.olsr <;> cases nb <;> cases mpr <;> cases out <;>
      by_cases hi : intf.id = w.id <;> simp [hi] <;> (try intros) <;> (try subst_vars) <;> (try omega) <;>
      (try exact fun h => hi h.symm)
  · rintro ⟨w, hw, hi, ho, hne⟩
    refine ⟨0, udpLen buf 8, choose env w.addr none none none, w, hw, ?_⟩
    rw [ho]
    subst hi
    cases h1 : intf.olsr
    · simp
    · rw [h1] at hne
      by_cases h2 : intf.id = w.id
      · cases nb <;> cases mpr <;> cases out <;> simp_all
      · cases nb <;> cases mpr <;> cases out <;> simp_all

/-- An encapsulated packet that is passed on at all goes to every interface without OLSR,
and to the OLSR interfaces exactly when the sender chose this node as relay. -/
theorem C73_encapsulated (env : Env) (ifs : List Intf) (mpr : Bool) (by_ : Nat) (to_ : Option Nat)
    (buf : List Nat) (i : Nat) :
    ((∃ s l, Send.raw i s l ∈ encapLoop env ifs mpr by_ to_ buf) ↔ ∃ w ∈ ifs, w.id = i ∧ w.olsr = false) ∧
    ((∃ s l c, Send.encap i s l c ∈ encapLoop env ifs mpr by_ to_ buf) ↔
      mpr = true ∧ ∃ w ∈ ifs, w.id = i ∧ w.olsr = true) := by
  unfold encapLoop
  simp only [List.mem_flatMap]
  refine ⟨⟨?_, ?_⟩, ⟨?_, ?_⟩⟩
  · rintro ⟨s, l, w, hw, h⟩
    refine ⟨w, hw, ?_⟩
    revert h
    cases hwo : w.olsr <;> cases mpr <;> simp <;> intros <;> simp_all
  · rintro ⟨w, hw, hi, ho⟩
    exact ⟨8, totLen buf 8, w, hw, by simp [ho, hi]⟩
  · rintro ⟨s, l, c, w, hw, h⟩
    revert h
    cases hwo : w.olsr <;> cases mpr <;> simp
    intro h _ _ _
    exact ⟨w, hw, h.symm, hwo⟩
  · rintro ⟨hm, w, hw, hi, ho⟩
    exact ⟨0, udpLen buf 8, _, w, hw, by rw [hm]; simp [ho, hi]; rfl⟩

/-- three interfaces: 1 and 2 run OLSR, 3 does not -/
def exIfs : List Intf := [⟨1, true, 1⟩, ⟨2, true, 2⟩, ⟨3, false, 3⟩]

/-- an encapsulated packet of 28 bytes from 10.0.0.12 to a multicast group whose IP header
claims `len` bytes -/
def exBuf (len : Nat) : List Nat :=
  [1, 6, 0, 0, 0, 0, 0, 77, 69, 0, len / 256, len % 256, 0, 0, 0, 0, 64, 17, 0, 0, 10, 0, 0, 12, 224, 0, 0, 9]

example : (encapLoop exEnv exIfs true 12 none (exBuf 20)).length = 3 ∧
    (encapLoop exEnv exIfs false 12 none (exBuf 20)).length = 1 := by decide

example : (∀ w ∈ exIfs, w.id = (⟨1, true, 1⟩ : Intf).id → w = ⟨1, true, 1⟩) ∧
    (captureLoop exEnv exIfs ⟨1, true, 1⟩ true false false (exBuf 20)).length = 1 ∧
    (captureLoop exEnv exIfs ⟨1, true, 1⟩ false false true (exBuf 20)).length = 2 ∧
    (captureLoop exEnv exIfs ⟨3, false, 3⟩ false false true (exBuf 20)).length = 2 := by decide

/-- the big-endian number in the four bytes at an offset -/
def big (buf : List Nat) (i : Nat) : Nat :=
  buf.getD i 0 * 16777216 + buf.getD (i + 1) 0 * 65536 + buf.getD (i + 2) 0 * 256 + buf.getD (i + 3) 0

/-- The neighbours that are left out when an encapsulated packet is relayed are those of the
inner source address (bytes 20 to 23 of the datagram), of the sender of the datagram, and of
its addressee; and it is dropped unless the datagram holds at least the two headers,
is not this node's own, came in on an OLSR interface and has the header of
the plug-in. -/
theorem C73_encapsulated_from (env : Env) (ifs : List Intf) (intf : Intf) (own mpr tun : Bool) (by_ : Nat)
    (to_ : Option Nat) (now n : Nat) (buf : List Nat) (t : Hist.Table) :
    (∀ i s l c, Send.encap i s l c ∈ (encapReceived env ifs intf own mpr tun by_ to_ now n buf t).2 →
      ∃ w ∈ ifs, w.id = i ∧ c = choose env w.addr (some (big buf 20)) (some by_) to_) ∧
    (n < 28 ∨ own = true ∨ intf.olsr = false ∨ buf.getD 0 0 ≠ 1 ∨ buf.getD 1 0 ≠ 6 →
      encapReceived env ifs intf own mpr tun by_ to_ now n buf t = (t, [])) := by
  constructor
  · intro i s l c h
    unfold encapReceived at h
    split at h
    · cases h
    split at h
    · cases h
    split at h
    · cases h
    split at h
    · cases h
    split at h
    · cases h
    simp only [List.mem_append] at h
    rcases h with h | h
    · split at h
      · simp at h
      · cases h
    · unfold encapLoop at h
      rw [List.mem_flatMap] at h
      obtain ⟨w, hw, h⟩ := h
      split at h
      · simp at h
      · split at h
        · simp only [List.mem_singleton, Send.encap.injEq] at h
          refine ⟨w, hw, h.1.symm, ?_⟩
          rw [h.2.2.2]
          have : addr32 buf 20 = big buf 20 := by
            unfold addr32 big Cksum.be16
            simp only [Nat.reduceAdd]
            omega
          rw [this]
        · cases h
  · intro h
    unfold encapReceived
    by_cases h1 : n < 28
    · rw [if_pos h1]
    rw [if_neg h1]
    cases own with
    | true => rfl
    | false =>
      cases hi : intf.olsr with
      | false => rfl
      | true =>
        have : hdrOk buf = false := by
          unfold hdrOk
          rcases h with h | h | h | h | h
          · exact absurd h h1
          · cases h
          · rw [hi] at h; cases h
          · rw [beq_eq_false_iff_ne.2 h]; rfl
          · rw [beq_eq_false_iff_ne.2 h, Bool.and_false]; rfl
        rw [this]
        rfl

example : ∃ c, Send.encap 2 0 28 c ∈ (encapReceived exEnv exIfs ⟨1, true, 1⟩ false true true 12 none 5 28 (exBuf 20) Hist.init).2 :=
  ⟨.to [.unicast 16], by decide⟩

/-- A captured packet goes encapsulated to an OLSR interface exactly when it is long enough
and eligible, was not seen before, and the interface is not ruled out; the question whether
its sender is a neighbour counts only for packets from an OLSR interface.  No
neighbour is left out. -/
theorem C73_captured_whole (env : Env) (ifs : List Intf) (intf : Intf) (nb mpr out el : Bool) (now crc n : Nat)
    (buf : List Nat) (t : Hist.Table) (i : Nat) (c : Choice) :
    (∃ s l, Send.encap i s l c ∈ (captured env ifs intf nb mpr out el now crc n buf t).2) ↔
      20 ≤ n ∧ el = true ∧ (Hist.checkAndMark now crc t).2 = false ∧
      ∃ w ∈ ifs, w.id = i ∧ w.olsr = true ∧ c = choose env w.addr none none none ∧
        ¬ (intf.olsr = true ∧ ((nb = true ∧ mpr = false) ∨ (out = true ∧ i = intf.id))) := by
  unfold captured
  by_cases h1 : n < 20
  · rw [if_pos h1]
    exact ⟨fun ⟨_, _, h⟩ => (by cases h), fun h => absurd h.1 (by omega)⟩
  rw [if_neg h1]
  cases el with
  | false => exact ⟨fun ⟨_, _, h⟩ => (by cases h), fun h => (by cases h.2.1)⟩
  | true =>
    rw [if_neg (by decide)]
    cases hs : (Hist.checkAndMark now crc t).2 with
    | true => exact ⟨fun ⟨_, _, h⟩ => (by cases h), fun h => (by cases h.2.2.1)⟩
    | false =>
      rw [if_neg (by decide)]
      refine ⟨fun h => ⟨by omega, rfl, rfl, ?_⟩, fun h => ?_⟩
      · obtain ⟨s, l, h⟩ := h
        have hm : Send.encap i s l c ∈ captureLoop env ifs intf (intf.olsr && nb) mpr out buf := h
        have hx := (C73_captured_encap env ifs intf (intf.olsr && nb) mpr out buf i).1 ⟨s, l, c, hm⟩
        unfold captureLoop at hm
        rw [List.mem_flatMap] at hm
        obtain ⟨w, hw, hm⟩ := hm
        obtain ⟨_, _, _, _, hne⟩ := hx
        have hne' : ¬ (intf.olsr = true ∧ ((nb = true ∧ mpr = false) ∨ (out = true ∧ i = intf.id))) := by
          rintro ⟨a, b⟩
          refine hne ⟨a, ?_⟩
          rw [a]
          simpa using b
        refine ⟨w, hw, ?_⟩
        revert hm
        repeat' split
        all_goals
          intro hm
          first
            | (simp only [List.mem_singleton, Send.encap.injEq] at hm
               refine ⟨hm.1.symm, ?_, hm.2.2.2, hne'⟩
               simp_all)
            | (simp at hm; done)
      · obtain ⟨_, _, _, w, hw, hi, ho, hc, hne⟩ := h
        refine ⟨0, udpLen buf 8, ?_⟩
        show Send.encap i 0 (udpLen buf 8) c ∈ captureLoop env ifs intf (intf.olsr && nb) mpr out buf
        unfold captureLoop
        rw [List.mem_flatMap]
        refine ⟨w, hw, ?_⟩
        rw [ho, hc]
        subst hi
        cases h1 : intf.olsr
        · simp
        · rw [h1] at hne
          by_cases h2 : intf.id = w.id
          · cases nb <;> cases mpr <;> cases out <;> simp_all
          · cases nb <;> cases mpr <;> cases out <;> simp_all

example : ∃ s l, Send.encap 2 s l (.to [.unicast 16]) ∈
    (captured exEnv exIfs ⟨1, true, 1⟩ true true false true 5 77 20 (exBuf 20) Hist.init).2 :=
  ⟨0, 28, by decide⟩

/-! ## C72 -/

private theorem captureLoop_within (env : Env) (ifs : List Intf) (intf : Intf) (nb mpr out : Bool) (buf : List Nat)
    (m : Nat) (h1 : 8 + totLen buf 8 ≤ m) (s : Send) (hs : s ∈ captureLoop env ifs intf nb mpr out buf) :
    s.within m := by
  have hu : udpLen buf 8 ≤ m := by unfold udpLen; omega
  unfold captureLoop at hs
  rw [List.mem_flatMap] at hs
  obtain ⟨w, _, hs⟩ := hs
  revert hs
  repeat' split
  all_goals
    intro hs
    first
      | (rw [List.mem_singleton] at hs
         subst hs
         unfold Send.within
         dsimp only
         omega)
      | cases hs

/-- What is passed on lies within the bytes that were received, if the IP header does not
claim a longer packet than that.  The code does not check this; without it the statement
is false (`C72_discloses`, `C72_leaves_buffer`). -/
theorem C72_only_received_partial (env : Env) (ifs : List Intf) (intf : Intf) (b1 b2 b3 b4 : Bool) (by_ : Nat)
    (to_ : Option Nat) (now crc n : Nat) (buf : List Nat) (t : Hist.Table) (s : Send) :
    (totLen buf 8 ≤ n → s ∈ (captured env ifs intf b1 b2 b3 b4 now crc n buf t).2 → s.within (8 + n)) ∧
    (8 + totLen buf 8 ≤ n → s ∈ (encapReceived env ifs intf b1 b2 b3 by_ to_ now n buf t).2 → s.within n) := by
  constructor
  · intro h hs
    unfold captured at hs
    repeat' split at hs
    all_goals first
      | cases hs
      | exact captureLoop_within _ _ _ _ _ _ _ _ (by omega) s hs
  · intro h hs
    have hu : udpLen buf 8 ≤ n := by unfold udpLen; omega
    unfold encapReceived at hs
    split at hs
    · cases hs
    split at hs
    · cases hs
    split at hs
    · cases hs
    split at hs
    · cases hs
    split at hs
    · cases hs
    simp only [List.mem_append] at hs
    rcases hs with hs | hs
    · split at hs
      · rw [List.mem_singleton] at hs
        subst hs
        exact h
      · cases hs
    · unfold encapLoop at hs
      rw [List.mem_flatMap] at hs
      obtain ⟨w, _, hs⟩ := hs
      split at hs
      · rw [List.mem_singleton] at hs
        subst hs
        exact h
      · split at hs
        · rw [List.mem_singleton] at hs
          subst hs
          unfold Send.within
          dsimp only
          omega
        · cases hs

example : (8 + totLen (exBuf 20) 8 ≤ 28) ∧
    (encapReceived exEnv exIfs ⟨1, true, 1⟩ false true true 12 none 5 28 (exBuf 20) Hist.init).2 =
      [.deliver 8 20, .encap 1 0 28 (.to [.unicast 15]), .encap 2 0 28 (.to [.unicast 16]), .raw 3 8 20] := by
  decide

/-- A datagram of 28 bytes whose inner header claims 1500 makes the node send 1508 bytes of
its receive buffer to its neighbours and 1500 to the attached networks: what earlier
packets left there. -/
theorem C72_discloses :
    ∃ (env : Env) (ifs : List Intf) (intf : Intf) (buf : List Nat), buf.length = 28 ∧
      Send.encap 2 0 1508 (.to [.unicast 16]) ∈ (encapReceived env ifs intf false true true 12 none 5 28 buf Hist.init).2 ∧
      Send.raw 3 8 1500 ∈ (encapReceived env ifs intf false true true 12 none 5 28 buf Hist.init).2 ∧
      Send.deliver 8 1500 ∈ (encapReceived env ifs intf false true true 12 none 5 28 buf Hist.init).2 :=
  ⟨exEnv, exIfs, ⟨1, true, 1⟩, exBuf 1500, by decide, by decide, by decide, by decide⟩

/-- With a larger claim the range leaves the receive buffer itself (2048 bytes on the
stack, Bmf.h:61, Bmf.c:1065), whatever the configuration: every interface without OLSR
is given memory behind it. -/
theorem C72_leaves_buffer (env : Env) (ifs : List Intf) (intf : Intf) (mpr tun : Bool) (by_ : Nat) (to_ : Option Nat)
    (now n : Nat) (buf : List Nat) (t : Hist.Table) (w : Intf) (hw : w ∈ ifs) (hwo : w.olsr = false)
    (hn : 28 ≤ n) (ho : intf.olsr = true) (hh : hdrOk buf = true) (hl : 2040 < totLen buf 8)
    (hs : (Hist.checkAndMark now (hdrCrc buf) t).2 = false) :
    ∃ s ∈ (encapReceived env ifs intf false mpr tun by_ to_ now n buf t).2, ¬ s.within 2048 := by
  refine ⟨.raw w.id 8 (totLen buf 8), ?_, ?_⟩
  · unfold encapReceived
    rw [if_neg (by omega), if_neg (by decide), if_neg (by rw [ho]; decide), if_neg (by rw [hh]; decide),
      if_neg (by rw [hs]; decide)]
    simp only [List.mem_append]
    refine Or.inr ?_
    unfold encapLoop
    rw [List.mem_flatMap]
    exact ⟨w, hw, by rw [hwo]; simp⟩
  · show ¬ (8 + totLen buf 8 ≤ 2048)
    omega

example : hdrOk (exBuf 65535) = true ∧ 2040 < totLen (exBuf 65535) 8 ∧
    (Hist.checkAndMark 5 (hdrCrc (exBuf 65535)) Hist.init).2 = false := by decide

/-- The length handed to `sendto` is computed in 16 bits: a packet that claims 65535 bytes is
relayed as the first seven bytes of its header. -/
theorem C72_truncates :
    ∃ (env : Env) (ifs : List Intf) (intf : Intf) (buf : List Nat), totLen buf 8 = 65535 ∧
      Send.encap 2 0 7 (.to [.unicast 16]) ∈
        (encapReceived env ifs intf false true true 12 none 5 28 buf Hist.init).2 :=
  ⟨exEnv, exIfs, ⟨1, true, 1⟩, exBuf 65535, by decide, by decide⟩

/-! ## C74 -/

private theorem hdrCrc_eq (buf : List Nat) : hdrCrc buf = big buf 4 := by
  unfold hdrCrc big Cksum.be16
  simp only [Nat.reduceAdd]
  omega

/-- A packet whose fingerprint was recorded at real time `T0` is neither relayed nor
delivered again before the first clean-up after the hold time of three seconds,
however it arrives: captured on an interface or encapsulated, whatever happened before `T0`
and whatever other packets passed since. -/
theorem C74_once (env : Env) (ifs : List Intf) (intf : Intf) (b1 b2 b3 b4 : Bool) (by_ : Nat)
    (to_ : Option Nat) (n : Nat) (buf : List Nat) (pre post : List Hist.Ev) (T0 T c : Nat)
    (hno : ∀ T', Hist.Ev.mark T' c ∉ post)
    (hp : ∀ T', Hist.Ev.prune T' ∈ post → T0 ≤ T' ∧ T' < T0 + 3000) :
    (captured env ifs intf b1 b2 b3 b4 (T % W) c n buf (Hist.run (pre ++ Hist.Ev.mark T0 c :: post))).2 = [] ∧
    (big buf 4 = c →
      (encapReceived env ifs intf b1 b2 b3 by_ to_ (T % W) n buf
        (Hist.run (pre ++ Hist.Ev.mark T0 c :: post))).2 = []) := by
  have h := (Hist.C43_seen_iff pre post T0 T c hno
    (fun T' h => ⟨(hp T' h).1, by have := (hp T' h).2; omega⟩)).2 (fun T' h => (hp T' h).2)
  unfold Hist.answer at h
  constructor
  · unfold captured
    split
    · rfl
    split
    · rfl
    rfl
  · intro hc
    unfold encapReceived
    split
    · rfl
    split
    · rfl
    split
    · rfl
    split
    · rfl
    rw [hdrCrc_eq, hc, if_pos h]

/-- Passing a packet on records its fingerprint: the table afterwards is the one after a
`mark` event.  Together with `C74_once` no packet is passed on twice within its hold
time. -/
theorem C74_recorded (env : Env) (ifs : List Intf) (intf : Intf) (b1 b2 b3 b4 : Bool) (by_ : Nat)
    (to_ : Option Nat) (n : Nat) (buf : List Nat) (evs : List Hist.Ev) (T c : Nat) :
    ((captured env ifs intf b1 b2 b3 b4 (T % W) c n buf (Hist.run evs)).2 ≠ [] →
      (captured env ifs intf b1 b2 b3 b4 (T % W) c n buf (Hist.run evs)).1 = Hist.run (evs ++ [.mark T c])) ∧
    ((encapReceived env ifs intf b1 b2 b3 by_ to_ (T % W) n buf (Hist.run evs)).2 ≠ [] →
      (encapReceived env ifs intf b1 b2 b3 by_ to_ (T % W) n buf (Hist.run evs)).1 =
        Hist.run (evs ++ [.mark T (big buf 4)])) := by
  have e : ∀ c, Hist.run (evs ++ [.mark T c]) = (Hist.checkAndMark (T % W) c (Hist.run evs)).1 := by
    intro c; unfold Hist.run; rw [List.foldl_append]; rfl
  constructor
  · unfold captured
    split
    · intro h; exact absurd rfl h
    split
    · intro h; exact absurd rfl h
    split
    · intro h; exact absurd rfl h
    intro _
    exact (e c).symm
  · unfold encapReceived
    split
    · intro h; exact absurd rfl h
    split
    · intro h; exact absurd rfl h
    split
    · intro h; exact absurd rfl h
    split
    · intro h; exact absurd rfl h
    split
    · intro h; exact absurd rfl h
    intro _
    rw [hdrCrc_eq]
    exact (e _).symm

example : (encapReceived exEnv exIfs ⟨1, true, 1⟩ false true true 12 none (1000 % W) 28 (exBuf 20) (Hist.run [])).2 ≠ [] ∧
    (captured exEnv exIfs ⟨1, true, 1⟩ false true true true (3999 % W) 77 20 (exBuf 20)
      (Hist.run ([] ++ Hist.Ev.mark 1000 77 :: [.mark 1500 4173, .prune 3999]))).2 = [] ∧
    (captured exEnv exIfs ⟨1, true, 1⟩ false true true true (3999 % W) 77 20 (exBuf 20)
      (Hist.run ([] ++ Hist.Ev.mark 1000 77 :: [.mark 1500 4173, .prune 4000]))).2 ≠ [] := by
  refine ⟨by decide, by decide, by decide⟩

/-- The fingerprint in an encapsulation header is believed: it is never compared with the
packet it travels with.  Whoever sends any header with the fingerprint `c` of a packet makes
the node drop that packet when it arrives, captured or encapsulated, up to three seconds
later. -/
theorem C74_forged_suppresses (env : Env) (ifs : List Intf) (intf intf2 : Intf) (b1 b2 b3 b4 mpr tun : Bool) (by_ : Nat)
    (to_ : Option Nat) (n n2 : Nat) (forged buf2 : List Nat) (evs : List Hist.Ev) (T T2 : Nat)
    (hn : 28 ≤ n) (ho : intf.olsr = true) (hh : hdrOk forged = true) :
    (captured env ifs intf2 b1 b2 b3 b4 (T2 % W) (big forged 4) n2 buf2
      (encapReceived env ifs intf false mpr tun by_ to_ (T % W) n forged (Hist.run evs)).1).2 = [] := by
  have e : (encapReceived env ifs intf false mpr tun by_ to_ (T % W) n forged (Hist.run evs)).1 =
      Hist.run (evs ++ Hist.Ev.mark T (hdrCrc forged) :: []) := by
    have : Hist.run (evs ++ [.mark T (hdrCrc forged)]) =
        (Hist.checkAndMark (T % W) (hdrCrc forged) (Hist.run evs)).1 := by
      unfold Hist.run; rw [List.foldl_append]; rfl
    rw [this]
    unfold encapReceived
    rw [if_neg (by omega), if_neg (by decide), if_neg (by rw [ho]; decide), if_neg (by rw [hh]; decide)]
    split <;> rfl
  rw [e, hdrCrc_eq]
  exact (C74_once env ifs intf2 b1 b2 b3 b4 by_ to_ n2 buf2 evs [] T T2 (big forged 4)
    (fun _ h => (by cases h)) (fun _ h => (by cases h))).1

example : hdrOk (exBuf 20) = true ∧ hdrCrc (exBuf 20) = 77 ∧
    (captured exEnv exIfs ⟨3, false, 3⟩ false false false true 9 77 1000 (exBuf 1000) Hist.init).2 ≠ [] := by decide

end Verif.Bmf
