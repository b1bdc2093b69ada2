import Verif.MdnsElectLemmas
/-
C119: the master election of the mdns plugin.
-/
namespace Verif.MdnsElect

private theorem quiet_ifs {s t : St} {es : List Ev} (h : run s es = some t)
    (hq : es.count Ev.elect = 0) : t.ifs = s.ifs := by
  induction es generalizing s with
  | nil => cases h; rfl
  | cons e es ih =>
    simp only [run] at h
    cases hs : step s e with
    | none => rw [hs] at h; cases h
    | some u =>
      rw [hs] at h
      cases e with
      | elect => simp at hq
      | recv sk pkt =>
        rw [ih h (by simpa using hq)]
        simp only [step, doElection] at hs
        cases hp : parseHello pkt with
        | none => rw [hp] at hs; cases hs; rfl
        | some x =>
          obtain ⟨fam, net, rid⟩ := x
          rw [hp] at hs
          simp only [] at hs
          by_cases hc : s.ready = false ∧ fam = s.v6
          · rw [if_pos hc] at hs; cases hs
          · rw [if_neg hc] at hs; cases hs; exact (update_ifs _ _ _).1
      | hello ok =>
        rw [ih h (by simpa using hq)]
        simp only [step, helloTimer] at hs
        by_cases hc : (ok.take s.ifs.length).all id = true
        · rw [if_pos hc] at hs; cases hs; rfl
        · rw [if_neg hc] at hs; cases hs

/-- Whatever has happened since the initialisation, the interface at position
`i` of `k` is active after an election (and until the next) exactly if no router
of the same network with a smaller address has been heard on it with `n`
elections since such that `k * n + i < 10`. -/
theorem C119_active (s t : St) (es rest : List Ev) (hr : s.ready = true) (h0 : s.rl = [])
    (hq : rest.count Ev.elect = 0) (h : run s (es ++ Ev.elect :: rest) = some t)
    (i : Nat) (f : Ifc) (hf : t.ifs[i]? = some f) :
    f.active = true ↔ ¬ ∃ rid n, Smaller rid s.own ∧ HeardAgo s.v6 es f.esk s.net rid n ∧
      s.ifs.length * n + i < 10 := by
  rw [show es ++ Ev.elect :: rest = (es ++ [Ev.elect]) ++ rest by simp, run_append] at h
  cases hu : run s (es ++ [Ev.elect]) with
  | none => rw [hu] at h; cases h
  | some u =>
    rw [hu] at h
    simp only [Option.bind_some] at h
    rw [quiet_ifs h hq] at hf
    obtain ⟨v, hv, hs⟩ := run_snoc hu
    obtain ⟨hpos, hlive⟩ := run_live hr h0 es v hv
    have hfr := run_frame hv
    simp only [step, electTimer] at hs
    cases hs
    rw [electAll_act _ _ _ _ _ _ hpos hf, hfr.2.1, hfr.2.2.1]
    constructor
    · rintro hn ⟨rid, n, h1, h2, h3⟩
      exact hn ⟨rid, (memLt_iff _ _).2 h1, (hlive _ _ _ _).2 ⟨n, h2, h3⟩⟩
    · rintro hn ⟨rid, h1, h2⟩
      obtain ⟨n, h3, h4⟩ := (hlive _ _ _ _).1 h2
      exact hn ⟨rid, n, (memLt_iff _ _).1 h1, h3, h4⟩

/-- Routers 10.0.0.1 and 10.0.0.2 on one LAN, as seen by the second. -/
def exSt : St := initTimer ⟨false, [], 0, false, [⟨7, true⟩], [], 0⟩
  ([10, 0, 0, 2] ++ List.replicate 12 0)

/-- The hello of 10.0.0.1. -/
def exHello : List Nat := helloPkt false 1 ([10, 0, 0, 1] ++ List.replicate 12 0)

example : exSt.ready = true ∧ exSt.rl = [] ∧ exSt.own = [10, 0, 0, 2] := by decide +kernel

example : (run exSt ([.recv 7 exHello] ++ Ev.elect :: [.hello [true]])).map (·.ifs) =
    some [⟨7, false⟩] := by decide +kernel

example : (run exSt ([.recv 7 exHello] ++ List.replicate 10 .elect)).map (·.ifs) =
    some [⟨7, false⟩] := by decide +kernel

example : (run exSt ([.recv 7 exHello] ++ List.replicate 11 .elect)).map (·.ifs) =
    some [⟨7, true⟩] := by decide +kernel

/-- With one interface: master unless a smaller router has been heard with fewer
than ten elections since. -/
theorem C119_single (s t : St) (es rest : List Ev) (hr : s.ready = true) (h0 : s.rl = [])
    (hq : rest.count Ev.elect = 0) (h : run s (es ++ Ev.elect :: rest) = some t)
    (g : Ifc) (h1 : s.ifs = [g]) (f : Ifc) (hf : t.ifs = [f]) :
    f.active = true ↔
      ¬ ∃ rid n, Smaller rid s.own ∧ HeardAgo s.v6 es g.esk s.net rid n ∧ n < 10 := by
  have hact := C119_active s t es rest hr h0 hq h 0 f (by rw [hf]; rfl)
  have hesk : f.esk = g.esk := by
    have := (run_frame h).2.2.2.2
    rw [hf, h1] at this
    simpa using this
  rw [hact, hesk, h1]
  simp

example : exSt.ifs = [⟨7, true⟩] ∧ HeardAgo exSt.v6 [.recv 7 exHello] 7 exSt.net [10, 0, 0, 1] 0 := by
  refine ⟨by decide +kernel, [], [], exHello, rfl, ?_, rfl⟩
  exact ⟨[2, 0, 0, 0], [10, 0, 0, 1] ++ List.replicate 12 0, [], by decide +kernel,
    by decide +kernel, by decide +kernel, by decide +kernel, by decide +kernel⟩

/-- The hello a router builds at its start is understood by another of the same
family as announcing its main address. -/
theorem C119_hello (v6 : Bool) (net : Nat) (main : List Nat) (hl : main.length = 16) :
    Announces v6 (helloPkt v6 net main) net (main.take (if v6 then 16 else 4)) := by
  refine ⟨if v6 then [10, 0, 0, 0] else [2, 0, 0, 0], main, [], ?_, ?_, hl, ?_, rfl⟩
  · cases v6 <;> rfl
  · cases v6 <;> rfl
  · cases v6 <;> simp

example : helloPkt false 1 ([10, 0, 0, 1] ++ List.replicate 12 0) =
    [36, 82, 69, 80, 2, 0, 0, 0, 10, 0, 0, 1, 0, 0, 0, 0, 0, 0, 0, 0, 0, 0, 0, 0, 1] := by
  decide +kernel

/-- And the address a daemon compares the others with is the one that it announces
itself. -/
theorem C119_own (s : St) (main : List Nat) (hl : main.length = 16) :
    Announces s.v6 (helloPkt s.v6 (initTimer s main).net main) (initTimer s main).net
      (initTimer s main).own :=
  C119_hello s.v6 _ main hl

example : (initTimer ⟨false, [], 0, false, [], [], 0⟩ ([10, 0, 0, 2] ++ List.replicate 12 9)).own =
    [10, 0, 0, 2] := by decide +kernel

/-- A router that hears a smaller one lately enough is not the master, so of two
that hear each other at most one is. -/
theorem C119_unique_partial (a b a' b' : St) (ea eb : List Ev)
    (ra : a.ready = true) (rb : b.ready = true) (la : a.rl = []) (lb : b.rl = [])
    (ha : run a (ea ++ [Ev.elect]) = some a') (hb : run b (eb ++ [Ev.elect]) = some b')
    (i j : Nat) (f g : Ifc) (hf : a'.ifs[i]? = some f) (hg : b'.ifs[j]? = some g)
    (hl : a.own.length = b.own.length) (hne : a.own ≠ b.own)
    (n m : Nat)
    (hab : HeardAgo a.v6 ea f.esk a.net b.own n) (hn : a.ifs.length * n + i < 10)
    (hba : HeardAgo b.v6 eb g.esk b.net a.own m) (hm : b.ifs.length * m + j < 10) :
    ¬ (f.active = true ∧ g.active = true) := by
  rintro ⟨h1, h2⟩
  have k1 := (C119_active a a' ea [] ra la rfl ha i f hf).1 h1
  have k2 := (C119_active b b' eb [] rb lb rfl hb j g hg).1 h2
  rcases memLt_total a.own b.own hl hne with h | h
  · exact k2 ⟨a.own, m, (memLt_iff _ _).1 h, hba, hm⟩
  · exact k1 ⟨b.own, n, (memLt_iff _ _).1 h, hab, hn⟩

/-- The first of the two routers. -/
def exFirst : St := initTimer ⟨false, [], 0, false, [⟨4, true⟩], [], 0⟩
  ([10, 0, 0, 1] ++ List.replicate 12 0)

example : exFirst.own.length = exSt.own.length ∧ exFirst.own ≠ exSt.own ∧
    (run exFirst ([.recv 4 (helloPkt false 1 ([10, 0, 0, 2] ++ List.replicate 12 0))] ++
      [Ev.elect])).map (·.ifs) = some [⟨4, true⟩] := by decide +kernel

/-- On a LAN whose routers all hear each other lately enough, and nobody else,
exactly the router with the smallest address is the master. -/
theorem C119_master_partial {ι : Type} (s t : ι → St) (es : ι → List Ev) (pos : ι → Nat)
    (f : ι → Ifc) (hr : ∀ r, (s r).ready = true) (h0 : ∀ r, (s r).rl = [])
    (h : ∀ r, run (s r) (es r ++ [Ev.elect]) = some (t r))
    (hf : ∀ r, (t r).ifs[pos r]? = some (f r))
    (hlen : ∀ r q, (s r).own.length = (s q).own.length)
    (hinj : ∀ r q, (s r).own = (s q).own → r = q)
    (hall : ∀ r q, r ≠ q → ∃ n, HeardAgo (s r).v6 (es r) (f r).esk (s r).net (s q).own n ∧
      (s r).ifs.length * n + pos r < 10)
    (honly : ∀ r rid n, HeardAgo (s r).v6 (es r) (f r).esk (s r).net rid n →
      ∃ q, rid = (s q).own) (r : ι) :
    (f r).active = true ↔ ∀ q, q ≠ r → Smaller (s r).own (s q).own := by
  rw [C119_active (s r) (t r) (es r) [] (hr r) (h0 r) rfl (h r) (pos r) (f r) (hf r)]
  constructor
  · intro hn q hq
    rcases memLt_total (s r).own (s q).own (hlen r q) (fun hh => hq (hinj _ _ hh.symm)) with hh | hh
    · exact (memLt_iff _ _).1 hh
    · obtain ⟨n, h1, h2⟩ := hall r q (fun hh => hq hh.symm)
      exact absurd ⟨_, n, (memLt_iff _ _).1 hh, h1, h2⟩ hn
  · rintro hn ⟨rid, n, hs, hh, _⟩
    obtain ⟨q, rfl⟩ := honly r rid n hh
    have h1 := (memLt_iff _ _).2 hs
    by_cases hq : q = r
    · subst hq
      have := memLt_asymm _ _ h1
      rw [h1] at this
      cases this
    · have h2 := memLt_asymm _ _ ((memLt_iff _ _).2 (hn q hq))
      rw [h1] at h2
      cases h2

/-- The two routers of the examples as a family. -/
def exFam : Bool → St := fun b => if b then exFirst else exSt

example : ∀ r, (exFam r).ready = true ∧ (exFam r).rl = [] := by decide +kernel

example : ∀ r q, (exFam r).own = (exFam q).own → r = q := by decide +kernel

/-- A neighbour that says hello at least once between any two elections but one
is heeded on all interfaces if there are no more than five of them. -/
theorem C119_five_partial (s t : St) (es : List Ev) (hr : s.ready = true) (h0 : s.rl = [])
    (h : run s (es ++ [Ev.elect]) = some t) (h5 : s.ifs.length ≤ 5)
    (i : Nat) (f : Ifc) (hf : t.ifs[i]? = some f) (rid : List Nat) (hs : Smaller rid s.own)
    (n : Nat) (hn : n ≤ 1) (hh : HeardAgo s.v6 es f.esk s.net rid n) : f.active = false := by
  have hact := C119_active s t es [] hr h0 rfl h i f hf
  have hi : i < s.ifs.length := by
    rw [← (run_frame h).len]
    exact (List.getElem?_eq_some_iff.1 hf).1
  cases hfa : f.active with
  | false => rfl
  | true =>
    refine absurd ⟨rid, n, hs, hh, ?_⟩ (hact.1 hfa)
    have : s.ifs.length * n ≤ s.ifs.length * 1 := Nat.mul_le_mul_left _ hn
    omega

/-- A router with five interfaces; the smaller one is on the last. -/
def ex5 : St := initTimer ⟨false, [], 0, false,
  [⟨3, true⟩, ⟨4, true⟩, ⟨5, true⟩, ⟨6, true⟩, ⟨7, true⟩], [], 0⟩
  ([10, 0, 0, 2] ++ List.replicate 12 0)

example : (run ex5 ([.recv 7 exHello, .elect] ++ [Ev.elect])).map (·.ifs.map (·.active)) =
    some [true, true, true, true, false] := by decide +kernel

/-- The same with six interfaces: every one of them counts the entry down, and
hello packets every 20 seconds (here at 14 and at 34 seconds) do not prevent two
elections (at 15 and 30 seconds) in between.  At the second the router takes
itself for the master on an interface on which a smaller one is sending, and both
are. -/
theorem C119_six_negation : ∃ (s t : St) (es : List Ev) (f : Ifc) (rid : List Nat),
    s.ready = true ∧ s.rl = [] ∧ s.ifs.length = 6 ∧ es = [.recv f.esk exHello, .elect] ∧
    run s (es ++ [Ev.elect]) = some t ∧ t.ifs[5]? = some f ∧ Smaller rid s.own ∧
    HeardAgo s.v6 es f.esk s.net rid 1 ∧ f.active = true := by
  refine ⟨initTimer ⟨false, [], 0, false, [⟨3, true⟩, ⟨4, true⟩, ⟨5, true⟩, ⟨6, true⟩, ⟨7, true⟩,
    ⟨8, true⟩], [], 0⟩ ([10, 0, 0, 2] ++ List.replicate 12 0), _, [.recv 8 exHello, .elect],
    ⟨8, true⟩, [10, 0, 0, 1], rfl, rfl, rfl, rfl, rfl, by decide +kernel, ?_, ?_, rfl⟩
  · exact ⟨3, 1, 2, by decide +kernel, rfl, by decide +kernel, by decide⟩
  · exact ⟨[], [.elect], exHello, rfl, ⟨[2, 0, 0, 0], [10, 0, 0, 1] ++ List.replicate 12 0, [],
      by decide +kernel, by decide +kernel, by decide +kernel, by decide +kernel,
      by decide +kernel⟩, rfl⟩

/-- The network id that has been configured has no effect: `initTimer` replaces
it by 1 before it is used, so a router that was told to belong to network 8
yields to one of network 7. -/
theorem C119_network_negation :
    (∀ (s : St) (n : Nat) (main : List Nat), (initTimer (setNetworkId s n) main).net = 1 ∧
      (initTimer (setNetworkId s n) main) = (initTimer s main)) ∧
    ∃ (s a : St), a = initTimer (setNetworkId s 8) ([10, 0, 0, 2] ++ List.replicate 12 0) ∧
      (run a [.recv 7 (helloPkt false (initTimer (setNetworkId s 7) []).net
        ([10, 0, 0, 1] ++ List.replicate 12 0)), .elect]).map (·.ifs) = some [⟨7, false⟩] := by
  refine ⟨fun s n main => ⟨rfl, rfl⟩, ⟨false, [], 0, false, [⟨7, true⟩], [], 0⟩, _, rfl, ?_⟩
  decide +kernel

/-- After the initialisation the election code fails in no way but one: when
sending a hello on one of the interfaces fails. -/
theorem C119_crash_partial (s : St) (es : List Ev) (hr : s.ready = true) :
    run s es ≠ none ↔
      ∀ ok, Ev.hello ok ∈ es → ∀ b ∈ ok.take s.ifs.length, b = true := by
  induction es generalizing s with
  | nil => simp [run]
  | cons e es ih =>
    simp only [run]
    have hgo : ∀ u, step s e = some u → ((step s e).bind (fun t => run t es) ≠ none ↔
        ∀ ok, Ev.hello ok ∈ es → ∀ b ∈ ok.take s.ifs.length, b = true) := by
      intro u hu
      rw [hu]
      simp only [Option.bind_some]
      have hfr := step_frame hu
      rw [ih u (by rw [hfr.2.2.2.1]; exact hr), hfr.len]
    cases e with
    | elect =>
      rw [hgo _ rfl]
      simp
    | recv sk pkt =>
      have : ∃ u, step s (.recv sk pkt) = some u := by
        simp only [step, doElection]
        cases hp : parseHello pkt with
        | none => exact ⟨s, rfl⟩
        | some x =>
          obtain ⟨fam, net, rid⟩ := x
          simp only []
          rw [if_neg (by rw [hr]; simp)]
          exact ⟨_, rfl⟩
      obtain ⟨u, hu⟩ := this
      rw [hgo u hu]
      simp
    | hello ok =>
      by_cases hc : (ok.take s.ifs.length).all id = true
      · rw [hgo s (by simp only [step, helloTimer, if_pos hc])]
        have hall : ∀ b ∈ ok.take s.ifs.length, b = true := by
          simpa [List.all_eq_true] using hc
        constructor
        · intro hh ok' hm
          rcases List.mem_cons.1 hm with h | h
          · cases h; exact hall
          · exact hh ok' h
        · intro hh ok' hm
          exact hh ok' (List.mem_cons_of_mem _ hm)
      · have : step s (.hello ok) = none := by simp only [step, helloTimer, if_neg hc]
        rw [this]
        constructor
        · intro hh; exact absurd rfl hh
        · intro hh
          exfalso
          apply hc
          rw [List.all_eq_true]
          intro b hb
          exact hh ok (List.mem_cons_self) b hb

example : (run exSt [.recv 7 exHello, .hello [true], .elect]).isSome = true := by decide +kernel

/-- A failing `sendto` (a LAN interface that is down, say) ends the daemon. -/
theorem C119_send_negation : ∃ (s : St) (ok : List Bool), s.ready = true ∧
    ok.length = s.ifs.length ∧ run s [.hello ok] = none :=
  ⟨exSt, [false], by decide +kernel, by decide +kernel, by decide +kernel⟩

/-- A hello that arrives in the second before the initialisation ends the daemon
as well. -/
theorem C119_early_negation : ∃ (s : St) (pkt : List Nat), s.ready = false ∧
    Announces s.v6 pkt 1 [10, 0, 0, 1] ∧ run s [.recv 7 pkt] = none := by
  refine ⟨⟨false, [], 0, false, [⟨7, true⟩], [], 0⟩, exHello, rfl, ?_, by decide +kernel⟩
  exact ⟨[2, 0, 0, 0], [10, 0, 0, 1] ++ List.replicate 12 0, [], by decide +kernel,
    by decide +kernel, by decide +kernel, by decide +kernel, by decide +kernel⟩

/-- Every hello of the other address family takes memory that is never given
back. -/
theorem C119_leak_negation (n : Nat) : ∃ es : List Ev, es.length = n ∧
    (run exSt es).map (·.leaked) = some n := by
  refine ⟨List.replicate n (.recv 7 (helloPkt true 1 (List.replicate 16 1))), by simp, ?_⟩
  have hstep : ∀ s : St, s.v6 = false →
      step s (.recv 7 (helloPkt true 1 (List.replicate 16 1))) =
        some { s with leaked := s.leaked + 1 } := by
    intro s hv
    have hp : parseHello (helloPkt true 1 (List.replicate 16 1)) =
        some (true, 1, List.replicate 16 1) := by decide +kernel
    simp only [step, doElection, hp, hv, updateRouterList]
    simp
  have hgen : ∀ (n : Nat) (s : St), s.v6 = false →
      (run s (List.replicate n (.recv 7 (helloPkt true 1 (List.replicate 16 1))))).map (·.leaked) =
        some (s.leaked + n) := by
    intro n
    induction n with
    | zero => intro s _; rfl
    | succ n ih =>
      intro s hv
      rw [List.replicate_succ]
      simp only [run, hstep s hv, Option.bind_some]
      rw [ih { s with leaked := s.leaked + 1 } hv]
      simp only [Option.some.injEq]
      omega
  have := hgen n exSt rfl
  rw [this]
  show some (0 + n) = some n
  rw [Nat.zero_add]

end Verif.MdnsElect
