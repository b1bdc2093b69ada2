import Mathlib.Data.List.Induction
import Verif.SecAuthModel
import Verif.SchedTimeProps

/-!
# C44, C77 — the timestamp negotiation of the secure plug-in
-/

namespace Verif.SecAuth

open Verif.SchedTime

/-! ## Specification -/

/-- The node has sent the number `c` to host `a` as a challenge. -/
def Issued (out : List Auth) (a c : Nat) : Prop :=
  (∃ m, Auth.challenge m a c true ∈ out) ∨ (∃ m ts r, Auth.cres m a c ts r true ∈ out)

/-- Host `a` has completed the exchange: during `evs` a response with right signature
arrived from it, addressed to this node, with the digest of a number that had been sent to
it before as a challenge. -/
def Completed (n : Node) (R : Nat → Nat → Nat) (evs : List Ev) (a : Nat) : Prop :=
  ∃ pre T auth sig r1 r2 g1 g2 post d c ts,
    evs = pre ++ Ev.recv T (some auth) sig r1 r2 g1 g2 :: post ∧
    ((∃ chal, auth = .cres a d chal ts (R c a) true) ∨ auth = .rres a d ts (R c a) true) ∧
    n.own d = true ∧ Issued (run n R init pre).2 a c

/-- A challenge that is addressed to this node has a right signature. -/
def Signed (n : Node) : Ev → Prop
  | .recv _ (some (.challenge _ d _ m)) _ _ _ _ _ => n.own d = true → m = true
  | _ => True

/-! ## Helpers -/

private theorem lookup_mem {t : List Entry} {a : Nat} {e : Entry} (h : lookup t a = some e) : e ∈ t ∧ e.addr = a := by
  unfold lookup at h
  exact ⟨List.mem_of_find?_eq_some h, by have := List.find?_some h; simpa using this⟩

private theorem mem_update {t : List Entry} {a : Nat} {f : Entry → Entry} {e' : Entry} (h : e' ∈ update t a f) :
    e' ∈ t ∨ ∃ e, lookup t a = some e ∧ e' = f e := by
  induction t with
  | nil => exact Or.inl h
  | cons x t ih =>
    rw [update] at h
    by_cases hx : (x.addr == a) = true
    · rw [if_pos hx, List.mem_cons] at h
      rcases h with h | h
      · exact Or.inr ⟨x, by unfold lookup; rw [List.find?_cons_of_pos (p := fun e : Entry => e.addr == a) hx], h⟩
      · exact Or.inl (List.mem_cons_of_mem _ h)
    · rw [if_neg hx, List.mem_cons] at h
      rcases h with h | h
      · exact Or.inl (by rw [h]; exact List.mem_cons_self ..)
      · rcases ih h with h | ⟨e, h1, h2⟩
        · exact Or.inl (List.mem_cons_of_mem _ h)
        · exact Or.inr ⟨e, by unfold lookup at h1 ⊢; rw [List.find?_cons_of_neg (p := fun e : Entry => e.addr == a) hx]; exact h1, h2⟩

private theorem lookup_update {t : List Entry} {a : Nat} {f : Entry → Entry} {e : Entry} (h : lookup t a = some e)
    (hf : (f e).addr = a) : lookup (update t a f) a = some (f e) := by
  induction t with
  | nil => cases h
  | cons x t ih =>
    rw [update]
    unfold lookup at h ih ⊢
    by_cases hx : (x.addr == a) = true
    · rw [List.find?_cons_of_pos (p := fun e : Entry => e.addr == a) hx] at h
      obtain rfl := Option.some.inj h
      rw [if_pos hx, List.find?_cons_of_pos (p := fun e : Entry => e.addr == a) (by show ((f x).addr == a) = true; rw [hf]; exact beq_self_eq_true a)]
    · rw [List.find?_cons_of_neg (p := fun e : Entry => e.addr == a) hx] at h
      rw [if_neg hx, List.find?_cons_of_neg (p := fun e : Entry => e.addr == a) hx]
      exact ih h

private theorem run_snoc (n : Node) (R : Nat → Nat → Nat) (evs : List Ev) (e : Ev) (s : State) :
    run n R s (evs ++ [e]) =
      ((step n R (run n R s evs).1 e).1, (run n R s evs).2 ++ (step n R (run n R s evs).1 e).2.1) := by
  induction evs generalizing s with
  | nil => simp [run]
  | cons x xs ih =>
    rw [List.cons_append, run, run, ih]
    simp [List.append_assoc]

private theorem Issued.mono {o o' : List Auth} {a c : Nat} (h : Issued o a c) (hs : ∀ x ∈ o, x ∈ o') : Issued o' a c := by
  rcases h with ⟨m, h⟩ | ⟨m, ts, r, h⟩
  · exact Or.inl ⟨m, hs _ h⟩
  · exact Or.inr ⟨m, ts, r, hs _ h⟩

private theorem Completed.mono {n : Node} {R : Nat → Nat → Nat} {evs : List Ev} {a : Nat} (h : Completed n R evs a)
    (e : Ev) : Completed n R (evs ++ [e]) a := by
  obtain ⟨pre, T, auth, sig, r1, r2, g1, g2, post, d, c, ts, h1, h2⟩ := h
  exact ⟨pre, T, auth, sig, r1, r2, g1, g2, post ++ [e], d, c, ts, by rw [h1]; simp, h2⟩

/-- what `check_auth` can have done to an entry -/
private theorem auth_entry (n : Node) (R : Nat → Nat → Nat) (s : State) (T rnd : Nat) (g : Junk) (auth : Option Auth)
    (hs : ∀ o d c m, auth = some (.challenge o d c m) → n.own d = true → m = true) (e' : Entry)
    (h : e' ∈ (checkAuth n R s T rnd g auth).1) :
    e' ∈ s.table ∨
    (e'.validated = false ∧ Issued (checkAuth n R s T rnd g auth).2 e'.addr e'.challenge) ∨
    (∃ e ∈ s.table, e.addr = e'.addr ∧ e'.validated = true ∧ ∃ d ts, n.own d = true ∧
      ((∃ chal, auth = some (.cres e'.addr d chal ts (R e.challenge e'.addr) true)) ∨
        auth = some (.rres e'.addr d ts (R e.challenge e'.addr) true))) := by
  match auth, hs, h with
  | none, _, h => exact Or.inl h
  | some (.challenge o d c m), hs, h =>
    simp only [checkAuth, parseChallenge] at h ⊢
    by_cases ho : n.own d = true
    · have hm := hs o d c m rfl ho
      subst hm
      rw [ho] at h ⊢
      simp only [Bool.not_true, Bool.false_eq_true, if_false] at h ⊢
      cases hl : lookup s.table o with
      | none =>
        rw [hl] at h
        simp only [] at h ⊢
        rw [List.mem_cons] at h
        rcases h with rfl | h
        · exact Or.inr (Or.inl ⟨rfl, Or.inr ⟨_, _, _, List.mem_singleton.2 rfl⟩⟩)
        · exact Or.inl h
      | some e =>
        rw [hl] at h
        simp only [] at h ⊢
        by_cases ht : (!isTimedOut T e.conftime) = true
        · rw [if_pos ht] at h
          exact Or.inl h
        · rw [if_neg ht] at h ⊢
          rcases mem_update h with h | ⟨x, h1, rfl⟩
          · exact Or.inl h
          · rw [hl] at h1
            obtain rfl := Option.some.inj h1
            refine Or.inr (Or.inl ⟨rfl, Or.inr ⟨n.main, s.now.toNat % 4294967296, R c d, List.mem_singleton.2 ?_⟩⟩)
            show Auth.cres _ e.addr _ _ _ _ = _
            rw [(lookup_mem hl).2]
    · rw [Bool.not_eq_true] at ho
      rw [ho] at h
      exact Or.inl h
  | some (.cres o d c ts r m), _, h =>
    simp only [checkAuth, parseCres] at h
    by_cases ho : n.own d = true
    · rw [ho] at h
      cases m with
      | false => exact Or.inl h
      | true =>
        simp only [Bool.not_true, Bool.false_eq_true, if_false] at h
        cases hl : lookup s.table o with
        | none => rw [hl] at h; exact Or.inl h
        | some e =>
          rw [hl] at h
          simp only [] at h
          by_cases hr : r = R e.challenge o
          · rw [if_neg (fun hh => hh hr)] at h
            rcases mem_update h with h | ⟨x, h1, rfl⟩
            · exact Or.inl h
            · rw [hl] at h1
              obtain rfl := Option.some.inj h1
              refine Or.inr (Or.inr ⟨e, (lookup_mem hl).1, rfl, rfl, d, ts, ho, Or.inl ⟨c, ?_⟩⟩)
              show _ = some (Auth.cres e.addr _ _ _ (R _ e.addr) _)
              rw [(lookup_mem hl).2, ← hr]
          · rw [if_pos hr] at h; exact Or.inl h
    · rw [Bool.not_eq_true] at ho
      rw [ho] at h
      exact Or.inl h
  | some (.rres o d ts r m), _, h =>
    simp only [checkAuth, parseRres] at h
    by_cases ho : n.own d = true
    · rw [ho] at h
      cases m with
      | false => exact Or.inl h
      | true =>
        simp only [Bool.not_true, Bool.false_eq_true, if_false] at h
        cases hl : lookup s.table o with
        | none => rw [hl] at h; exact Or.inl h
        | some e =>
          rw [hl] at h
          simp only [] at h
          by_cases hr : r = R e.challenge o
          · rw [if_neg (fun hh => hh hr)] at h
            rcases mem_update h with h | ⟨x, h1, rfl⟩
            · exact Or.inl h
            · rw [hl] at h1
              obtain rfl := Option.some.inj h1
              refine Or.inr (Or.inr ⟨e, (lookup_mem hl).1, rfl, rfl, d, ts, ho, Or.inr ?_⟩)
              show _ = some (Auth.rres e.addr _ _ (R _ e.addr) _)
              rw [(lookup_mem hl).2, ← hr]
          · rw [if_pos hr] at h; exact Or.inl h
    · rw [Bool.not_eq_true] at ho
      rw [ho] at h
      exact Or.inl h

/-- what `check_timestamp` can have done to an entry -/
private theorem stamp_entry (n : Node) (s : State) (T orig ts rnd : Nat) (g : Junk) (e' : Entry)
    (h : e' ∈ (checkTimestamp n s T orig ts rnd g).1) :
    e' ∈ s.table ∨
    (e'.validated = false ∧ Issued (checkTimestamp n s T orig ts rnd g).2.1 e'.addr e'.challenge) ∨
    (∃ e ∈ s.table, e.addr = e'.addr ∧ e'.validated = true ∧ e.validated = true) := by
  unfold checkTimestamp at h ⊢
  cases hl : lookup s.table orig with
  | none =>
    rw [hl] at h
    simp only [sendChallenge, List.mem_cons] at h ⊢
    rcases h with rfl | h
    · exact Or.inr (Or.inl ⟨rfl, Or.inl ⟨_, List.mem_singleton.2 rfl⟩⟩)
    · exact Or.inl h
  | some e =>
    rw [hl] at h
    simp only [] at h
    cases hv : e.validated with
    | false => rw [hv] at h; exact Or.inl h
    | true =>
      rw [hv] at h
      simp only [Bool.not_true, Bool.false_eq_true, if_false] at h
      split at h
      · exact Or.inl h
      · rcases mem_update h with h | ⟨x, h1, rfl⟩
        · exact Or.inl h
        · rw [hl] at h1
          obtain rfl := Option.some.inj h1
          exact Or.inr (Or.inr ⟨e, (lookup_mem hl).1, rfl, hv, hv⟩)

private def Good (n : Node) (R : Nat → Nat → Nat) (evs : List Ev) (out : List Auth) (e : Entry) : Prop :=
  (e.validated = false → Issued out e.addr e.challenge) ∧ (e.validated = true → Completed n R evs e.addr)

private theorem auth_good (n : Node) (R : Nat → Nat → Nat) (evs : List Ev) (T : Nat) (auth : Option Auth)
    (sig : Option (Nat × Nat)) (r1 r2 : Nat) (g1 g2 : Junk)
    (hs : Signed n (.recv T auth sig r1 r2 g1 g2))
    (hi : ∀ e ∈ (run n R init evs).1.table, Good n R evs (run n R init evs).2 e) (e' : Entry)
    (h : e' ∈ (checkAuth n R (run n R init evs).1 T r1 g1 auth).1) :
    Good n R (evs ++ [.recv T auth sig r1 r2 g1 g2])
      ((run n R init evs).2 ++ (checkAuth n R (run n R init evs).1 T r1 g1 auth).2) e' := by
  have hs' : ∀ o d c m, auth = some (.challenge o d c m) → n.own d = true → m = true := by
    intro o d c m ha
    subst ha
    exact hs
  rcases auth_entry n R _ T r1 g1 auth hs' e' h with h | ⟨h1, h2⟩ | ⟨e, he, ha, hv, d, ts, ho, hm⟩
  · obtain ⟨a, b⟩ := hi e' h
    exact ⟨fun hv => (a hv).mono (fun x hx => List.mem_append_left _ hx), fun hv => (b hv).mono _⟩
  · exact ⟨fun _ => h2.mono (fun x hx => List.mem_append_right _ hx), fun hv => by rw [h1] at hv; cases hv⟩
  · refine ⟨fun hv' => (by rw [hv] at hv'; cases hv'), fun _ => ?_⟩
    obtain ⟨a, b⟩ := hi e he
    cases hev : e.validated with
    | true => rw [← ha]; exact (b hev).mono _
    | false =>
      have his := a hev
      rw [ha] at his
      rcases hm with ⟨chal, hm⟩ | hm
      · exact ⟨evs, T, _, sig, r1, r2, g1, g2, [], d, e.challenge, ts, by rw [hm], Or.inl ⟨chal, rfl⟩, ho, his⟩
      · exact ⟨evs, T, _, sig, r1, r2, g1, g2, [], d, e.challenge, ts, by rw [hm], Or.inr rfl, ho, his⟩

private theorem inv (n : Node) (R : Nat → Nat → Nat) (evs : List Ev) (hs : ∀ e ∈ evs, Signed n e) :
    ∀ e ∈ (run n R init evs).1.table, Good n R evs (run n R init evs).2 e := by
  induction evs using List.reverseRecOn with
  | nil => intro e h; cases h
  | append_singleton evs ev ih =>
    have ih := ih (fun e he => hs e (List.mem_append_left _ he))
    rw [run_snoc]
    intro e h
    cases ev with
    | tick T sec =>
      have hm : e ∈ (run n R init evs).1.table := (List.mem_filter.1 h).1
      obtain ⟨a, b⟩ := ih e hm
      exact ⟨fun hv => (a hv).mono (fun x hx => List.mem_append_left _ hx), fun hv => (b hv).mono _⟩
    | recv T auth sig r1 r2 g1 g2 =>
      have hsg := hs _ (List.mem_append_right _ (List.mem_singleton.2 rfl))
      have hag := auth_good n R evs T auth sig r1 r2 g1 g2 hsg ih
      cases sig with
      | none => exact hag e h
      | some p =>
        obtain ⟨orig, ts⟩ := p
        have h : e ∈ (checkTimestamp n ⟨(checkAuth n R (run n R init evs).1 T r1 g1 auth).1, (run n R init evs).1.now⟩
          T orig ts r2 g2).1 := h
        show Good n R _ ((run n R init evs).2 ++ ((checkAuth n R (run n R init evs).1 T r1 g1 auth).2 ++
          (checkTimestamp n ⟨(checkAuth n R (run n R init evs).1 T r1 g1 auth).1, (run n R init evs).1.now⟩
          T orig ts r2 g2).2.1)) e
        rw [← List.append_assoc]
        rcases stamp_entry n _ T orig ts r2 g2 e h with h | ⟨h1, h2⟩ | ⟨x, hx, ha, hv, hxv⟩
        · obtain ⟨a, b⟩ := hag e h
          exact ⟨fun hv => (a hv).mono (fun x hx => List.mem_append_left _ hx), b⟩
        · exact ⟨fun _ => h2.mono (fun x hx => List.mem_append_right _ hx), fun hv => by rw [h1] at hv; cases hv⟩
        · refine ⟨fun hv' => (by rw [hv] at hv'; cases hv'), fun _ => ?_⟩
          rw [← ha]
          exact (hag x hx).2 hxv

private theorem tdiv2 (x : Int) : x.tdiv 2 * 2 ≤ x + 1 ∧ x ≤ x.tdiv 2 * 2 + 1 := by
  rcases Int.le_total 0 x with h | h
  · rw [Int.tdiv_eq_ediv_of_nonneg h]; omega
  · obtain ⟨y, rfl⟩ : ∃ y, x = -y := ⟨-x, by omega⟩
    rw [Int.neg_tdiv, Int.tdiv_eq_ediv_of_nonneg (by omega)]
    omega

private theorem toInt_iff (x : Int) : (¬ (toInt x > 3 ∨ toInt x < -3)) ↔ ∃ k : Int, -3 ≤ x - k * 4294967296 ∧ x - k * 4294967296 ≤ 3 := by
  unfold toInt
  constructor
  · intro h
    refine ⟨(x + 2147483648) / 4294967296, ?_⟩
    omega
  · rintro ⟨k, h1, h2⟩
    have : (x + 2147483648) / 4294967296 = k := by omega
    omega

/-! ## C44 -/

/-- A packet with right signature is accepted exactly if its originator has an entry that is
marked valid and the timestamp differs from the tracked offset by at most three seconds
(as 32-bit numbers); the challenge/response message in the packet counts already. -/
theorem C44_slack (n : Node) (R : Nat → Nat → Nat) (s : State) (T : Nat) (auth : Option Auth) (orig ts r1 r2 : Nat)
    (g1 g2 : Junk) :
    (step n R s (.recv T auth (some (orig, ts)) r1 r2 g1 g2)).2.2 = true ↔
      ∃ e, lookup (checkAuth n R s T r1 g1 auth).1 orig = some e ∧ e.validated = true ∧
        ∃ k : Int, -3 ≤ e.diff - (s.now - ts) - k * 4294967296 ∧ e.diff - (s.now - ts) - k * 4294967296 ≤ 3 := by
  show (checkTimestamp n ⟨(checkAuth n R s T r1 g1 auth).1, s.now⟩ T orig ts r2 g2).2.2 = true ↔ _
  unfold checkTimestamp
  cases hl : lookup (checkAuth n R s T r1 g1 auth).1 orig with
  | none => exact ⟨fun h => (by cases h), fun ⟨e, h, _⟩ => (by cases h)⟩
  | some e =>
    simp only []
    cases hv : e.validated with
    | false => exact ⟨fun h => (by cases h), fun ⟨e', h, h2, _⟩ => by cases h; rw [hv] at h2; cases h2⟩
    | true =>
      rw [if_neg (by decide)]
      have hh := toInt_iff (e.diff - (s.now - ts))
      by_cases h : toInt (e.diff - (s.now - ↑ts)) > 3 ∨ toInt (e.diff - (s.now - ↑ts)) < -3
      · rw [if_pos h]
        refine ⟨fun h => (by cases h), fun ⟨e', h1, _, h3⟩ => ?_⟩
        cases h1
        exact absurd h (hh.2 h3)
      · rw [if_neg h]
        exact ⟨fun _ => ⟨e, rfl, hv, hh.1 h⟩, fun _ => rfl⟩

/-- A malformed or wrongly signed packet is never accepted. -/
theorem C44_unsigned_rejected (n : Node) (R : Nat → Nat → Nat) (s : State) (T : Nat) (auth : Option Auth) (r1 r2 : Nat)
    (g1 g2 : Junk) : (step n R s (.recv T auth none r1 r2 g1 g2)).2.2 = false := rfl

/-- Whatever happened since the start, a packet is accepted only from a host that completed
the exchange — if every challenge addressed to this node has a right signature.  Without
that it is false: `C44_unsigned_challenge_validates`. -/
theorem C44_exchange_partial (n : Node) (R : Nat → Nat → Nat) (evs : List Ev) (ev : Ev)
    (hs : ∀ e ∈ evs ++ [ev], Signed n e) (h : (step n R (run n R init evs).1 ev).2.2 = true) :
    ∃ T auth orig ts r1 r2 g1 g2, ev = .recv T auth (some (orig, ts)) r1 r2 g1 g2 ∧
      Completed n R (evs ++ [ev]) orig := by
  cases ev with
  | tick T sec => cases h
  | recv T auth sig r1 r2 g1 g2 =>
    cases sig with
    | none => cases h
    | some p =>
      obtain ⟨orig, ts⟩ := p
      refine ⟨T, auth, orig, ts, r1, r2, g1, g2, rfl, ?_⟩
      obtain ⟨e, hl, hv, _⟩ := (C44_slack n R _ T auth orig ts r1 r2 g1 g2).1 h
      have hi := inv n R evs (fun e he => hs e (List.mem_append_left _ he))
      have hg := auth_good n R evs T auth (some (orig, ts)) r1 r2 g1 g2
        (hs _ (List.mem_append_right _ (List.mem_singleton.2 rfl))) hi e (lookup_mem hl).1
      have := hg.2 hv
      rw [(lookup_mem hl).2] at this
      exact this

/-- a node with address 1, a toy digest, and memory full of zeros -/
def exN : Node := ⟨1, fun a => a == 1⟩
def exR (c a : Nat) : Nat := c * 1000 + a
def zero : Junk := ⟨0, 0, false, 0, 0⟩

/-- host 2 is challenged, responds, and is heard from then on -/
def exEvs : List Ev :=
  [.tick 2000 1700000000, .recv 2500 none (some (2, 1700000050)) 0 77 zero zero,
   .recv 2600 (some (.cres 2 1 5 1700000050 (exR 77 2) true)) (some (2, 1700000050)) 0 0 zero zero]

example : (∀ e ∈ exEvs ++ [.recv 3000 none (some (2, 1700000052)) 0 0 zero zero], Signed exN e) ∧
    (step exN exR (run exN exR init exEvs).1 (.recv 3000 none (some (2, 1700000053)) 0 0 zero zero)).2.2 = true ∧
    (step exN exR (run exN exR init exEvs).1 (.recv 3000 none (some (2, 1700000054)) 0 0 zero zero)).2.2 = false ∧
    (step exN exR (run exN exR init exEvs).1 (.recv 3000 none (some (3, 1700000000)) 0 0 zero zero)).2.2 = false := by
  refine ⟨?_, by decide, by decide, by decide⟩
  intro e he
  simp only [exEvs, List.cons_append, List.nil_append, List.mem_cons, List.not_mem_nil, or_false] at he
  rcases he with rfl | rfl | rfl | rfl <;> exact trivial

/-- One challenge with a wrong signature is enough: it makes an entry out of uninitialised
memory.  If that memory is not zero in the right place, packets of the host are accepted
although no challenge was ever sent to it, hence no exchange took place. -/
theorem C44_unsigned_challenge_validates :
    ∃ (n : Node) (R : Nat → Nat → Nat) (evs : List Ev) (ev : Ev) (o t : Nat),
      evs = [.recv 5 (some (.challenge 2 1 9 false)) none 0 0 ⟨-100, 0, true, 0, 0⟩ zero] ∧
      ev = .recv 6 none (some (o, t)) 0 0 zero zero ∧
      (step n R (run n R init evs).1 ev).2.2 = true ∧ ¬ Completed n R (evs ++ [ev]) o ∧
      (run n R init (evs ++ [ev])).2 = [] := by
  refine ⟨exN, exR, _, .recv 6 none (some (2, 100)) 0 0 zero zero, 2, 100, rfl, rfl, by decide, ?_, by decide⟩
  rintro ⟨pre, T, auth, sig, r1, r2, g1, g2, post, d, c, ts, h, hm, _⟩
  have hin : Ev.recv T (some auth) sig r1 r2 g1 g2 ∈
      [Ev.recv 5 (some (.challenge 2 1 9 false)) none 0 0 ⟨-100, 0, true, 0, 0⟩ zero] ++
        [Ev.recv 6 none (some (2, 100)) 0 0 zero zero] := by
    rw [h]; exact List.mem_append_right _ (List.mem_cons_self ..)
  simp only [List.cons_append, List.nil_append, List.mem_cons, List.not_mem_nil, or_false] at hin
  rcases hin with hin | hin
  · injection hin with _ ha
    injection ha with ha
    subst ha
    rcases hm with ⟨_, hm⟩ | hm <;> cases hm
  · injection hin with _ ha
    cases ha

/-- An accepted packet moves the tracked offset half of the way to its own offset and keeps
the entry for 30 more seconds; no other entry changes. -/
theorem C44_tracking (n : Node) (R : Nat → Nat → Nat) (s : State) (T : Nat) (orig ts r1 r2 : Nat)
    (g1 g2 : Junk) (e : Entry) (he : lookup s.table orig = some e) (hv : e.validated = true)
    (h1 : -3 ≤ e.diff - (s.now - ts)) (h2 : e.diff - (s.now - ts) ≤ 3)
    (h3 : -2147483640 < e.diff) (h4 : e.diff < 2147483640) :
    ∃ e', lookup (step n R s (.recv T none (some (orig, ts)) r1 r2 g1 g2)).1.table orig = some e' ∧
      e'.validated = true ∧ e'.addr = orig ∧ e'.valtime = getTimestamp T 30000 ∧
      e'.diff * 2 ≤ (s.now - ts) + e.diff + 1 ∧ (s.now - ts) + e.diff ≤ e'.diff * 2 + 1 ∧
      (step n R s (.recv T none (some (orig, ts)) r1 r2 g1 g2)).2 = ([], true) := by
  have hd : toInt (e.diff - (s.now - ts)) = e.diff - (s.now - ts) := by unfold toInt; omega
  have hc : checkTimestamp n ⟨s.table, s.now⟩ T orig ts r2 g2 =
      (update s.table orig (fun e => ⟨e.addr, toInt (((s.now - ts) + e.diff).tdiv 2), e.challenge, e.validated,
        getTimestamp T stampHold, e.conftime⟩), [], true) := by
    unfold checkTimestamp
    simp only [he, hv, hd]
    rw [if_neg (by decide), if_neg (by omega)]
  have hstep : step n R s (.recv T none (some (orig, ts)) r1 r2 g1 g2) =
      (⟨(checkTimestamp n ⟨s.table, s.now⟩ T orig ts r2 g2).1, s.now⟩,
        [] ++ (checkTimestamp n ⟨s.table, s.now⟩ T orig ts r2 g2).2.1,
        (checkTimestamp n ⟨s.table, s.now⟩ T orig ts r2 g2).2.2) := rfl
  rw [hstep, hc]
  have hq : toInt (((s.now - ts) + e.diff).tdiv 2) = ((s.now - ts) + e.diff).tdiv 2 := by
    unfold toInt
    have := tdiv2 ((s.now - ts) + e.diff)
    omega
  refine ⟨_, lookup_update he (lookup_mem he).2, hv, (lookup_mem he).2, rfl, ?_, ?_, rfl⟩
  all_goals
    simp only [hq]
    have := tdiv2 ((s.now - ts) + e.diff)
    omega

example : ∃ e, lookup (run exN exR init exEvs).1.table 2 = some e ∧ e.validated = true ∧ e.diff = -50 := by
  refine ⟨⟨2, -50, 0, true, 32600, 7500⟩, ?_, rfl, rfl⟩
  decide

/-- The three seconds do not bound how old an accepted packet can be: each packet that is
three seconds late drags the offset one second along, so packets of any age are accepted in
the end, with no exchange in between (and so can be a recorded stream played back slowly
enough). -/
theorem C44_drift (n : Node) (R : Nat → Nat → Nat) (a c v cf : Nat) (now : Nat) (T k : Nat) (hk : k + 10 < 2147483640)
    (hn : k + 3 ≤ now) :
    ∃ evs v', evs.length = k ∧
      (∀ e ∈ evs, ∃ ts, e = Ev.recv T none (some (a, ts)) 0 0 zero zero) ∧
      (∀ i (hi : i < evs.length), (step n R (run n R ⟨[⟨a, 0, c, true, v, cf⟩], now⟩ (evs.take i)).1 evs[i]).2.2 = true) ∧
      run n R ⟨[⟨a, 0, c, true, v, cf⟩], now⟩ evs = (⟨[⟨a, k, c, true, v', cf⟩], now⟩, []) ∧
      (step n R ⟨[⟨a, k, c, true, v', cf⟩], now⟩ (.recv T none (some (a, now - (k + 3))) 0 0 zero zero)).2.2 = true := by
  have hstep : ∀ j v, j ≤ k → step n R ⟨[⟨a, (j : Nat), c, true, v, cf⟩], now⟩
      (.recv T none (some (a, now - (j + 3))) 0 0 zero zero) =
        (⟨[⟨a, (j + 1 : Nat), c, true, getTimestamp T stampHold, cf⟩], now⟩, [], true) := by
    intro j v hj
    have hx : ((now : Int) - ((now - (j + 3) : Nat) : Int)) = j + 3 := by omega
    have h1 : toInt ((j : Int) - (j + 3)) = -3 := by unfold toInt; omega
    have h2 : toInt (((j : Int) + 3 + j).tdiv 2) = ((j + 1 : Nat) : Int) := by
      rw [Int.tdiv_eq_ediv_of_nonneg (by omega)]
      unfold toInt
      omega
    simp only [step, checkAuth, checkTimestamp, lookup, List.find?_cons, beq_self_eq_true, hx, h1, h2, update, if_true,
      List.nil_append]
    rfl
  induction k with
  | zero =>
    exact ⟨[], v, rfl, fun _ h => (by cases h), fun i hi => absurd hi (Nat.not_lt_zero _), rfl,
      by rw [hstep 0 v (Nat.le_refl _)]⟩
  | succ k ih =>
    obtain ⟨evs, v', h1, h2, h3, h4, h5⟩ := ih (by omega) (by omega) (fun j v hj => hstep j v (by omega))
    refine ⟨evs ++ [.recv T none (some (a, now - (k + 3))) 0 0 zero zero], getTimestamp T stampHold, by simp [h1], ?_, ?_, ?_, ?_⟩
    · intro e he
      rcases List.mem_append.1 he with he | he
      · exact h2 e he
      · exact ⟨_, List.mem_singleton.1 he⟩
    · intro i hi
      by_cases hik : i < evs.length
      · rw [List.take_append_of_le_length (by omega), List.getElem_append_left hik]
        exact h3 i hik
      · have : i = evs.length := by simp at hi; omega
        subst this
        rw [List.take_left, List.getElem_concat_length rfl, h4]
        exact h5
    · rw [run_snoc, h4, hstep k v' (by omega)]
      rfl
    · rw [hstep (k + 1) _ (Nat.le_refl _)]

example : (100000 : Nat) + 10 < 2147483640 ∧ 100000 + 3 ≤ 1700000000 := by decide

/-! ## C77: can two hosts complete the exchange? -/

/-- Two hosts that do not know each other complete the exchange in the intended order —
packet, challenge, response with counter-challenge, response — and then each has a valid
entry for the other with the true difference of the clocks.  The challenge is sent in a
packet of its own together with a signature, as are the responses. -/
theorem C77_exchange (A B : Node) (R : Nat → Nat → Nat) (sA sB : State) (T1 T2 T3 T4 rA rB x1 x2 x3 x4 : Nat)
    (g1 g2 g3 g4 g5 g6 g7 g8 : Junk) (tsB : Nat)
    (hA : A.own A.main = true) (hB : B.own B.main = true)
    (nA : lookup sA.table B.main = none) (nB : lookup sB.table A.main = none)
    (cA : 0 ≤ sA.now ∧ sA.now < 2147483648) (cB : 0 ≤ sB.now ∧ sB.now < 2147483648) :
    ∃ m1 m2 m3 A1 A2 B1 B2 eA eB,
      -- A hears any signed packet of B and challenges it
      step A R sA (.recv T1 none (some (B.main, tsB)) x1 rA g1 g2) = (A1, [m1], false) ∧
      -- B gets the challenge and responds
      step B R sB (.recv T2 (some m1) none rB x2 g3 g4) = (B1, [m2], false) ∧
      -- A gets the response and responds to the challenge therein
      step A R A1 (.recv T3 (some m2) none x3 x4 g5 g6) = (A2, [m3], false) ∧
      -- B gets that response
      step B R B1 (.recv T4 (some m3) none x3 x4 g7 g8) = (B2, [], false) ∧
      lookup A2.table B.main = some eA ∧ eA.validated = true ∧ eA.diff = sA.now - sB.now ∧
      lookup B2.table A.main = some eB ∧ eB.validated = true ∧ eB.diff = sB.now - sA.now := by
  have ha : ((sA.now.toNat % 4294967296 : Nat) : Int) = sA.now := by omega
  have hb : ((sB.now.toNat % 4294967296 : Nat) : Int) = sB.now := by omega
  have hd1 : toInt (sA.now - sB.now) = sA.now - sB.now := by unfold toInt; omega
  have hd2 : toInt (sB.now - sA.now) = sB.now - sA.now := by unfold toInt; omega
  refine ⟨.challenge A.main B.main rA true, .cres B.main A.main rB (sB.now.toNat % 4294967296) (R rA B.main) true,
    .rres A.main B.main (sA.now.toNat % 4294967296) (R rB A.main) true,
    ⟨⟨B.main, 0, rA, false, g2.valtime, getTimestamp T1 exchangeHold⟩ :: sA.table, sA.now⟩,
    ⟨⟨B.main, sA.now - sB.now, 0, true, getTimestamp T3 stampHold, getTimestamp T1 exchangeHold⟩ :: sA.table, sA.now⟩,
    ⟨⟨A.main, 0, rB, false, g3.valtime, getTimestamp T2 exchangeHold⟩ :: sB.table, sB.now⟩,
    ⟨⟨A.main, sB.now - sA.now, 0, true, getTimestamp T4 stampHold, getTimestamp T2 exchangeHold⟩ :: sB.table, sB.now⟩,
    ⟨B.main, sA.now - sB.now, 0, true, getTimestamp T3 stampHold, getTimestamp T1 exchangeHold⟩,
    ⟨A.main, sB.now - sA.now, 0, true, getTimestamp T4 stampHold, getTimestamp T2 exchangeHold⟩, ?_, ?_, ?_, ?_, ?_, rfl, rfl, ?_, rfl, rfl⟩
  · simp only [step, checkAuth, checkTimestamp, nA, sendChallenge, List.nil_append]
  · simp only [step, checkAuth, parseChallenge, hB, nB, Bool.not_true, Bool.false_eq_true, if_false]
  · have hl : lookup (⟨B.main, 0, rA, false, g2.valtime, getTimestamp T1 exchangeHold⟩ :: sA.table) B.main =
        some ⟨B.main, 0, rA, false, g2.valtime, getTimestamp T1 exchangeHold⟩ := by
      simp only [lookup, List.find?_cons, beq_self_eq_true]
    simp only [step, checkAuth, parseCres, hA, hl, Bool.not_true, Bool.false_eq_true, if_false, register, update,
      beq_self_eq_true, if_true, hb, hd1, ne_eq, not_true_eq_false]
  · have hl : lookup (⟨A.main, 0, rB, false, g3.valtime, getTimestamp T2 exchangeHold⟩ :: sB.table) A.main =
        some ⟨A.main, 0, rB, false, g3.valtime, getTimestamp T2 exchangeHold⟩ := by
      simp only [lookup, List.find?_cons, beq_self_eq_true]
    simp only [step, checkAuth, parseRres, hB, hl, Bool.not_true, Bool.false_eq_true, if_false, register, update,
      beq_self_eq_true, if_true, ha, hd2, ne_eq, not_true_eq_false]
  · simp only [lookup, List.find?_cons, beq_self_eq_true]
  · simp only [lookup, List.find?_cons, beq_self_eq_true]

example : lookup init.table 2 = none ∧ (0 : Int) ≤ init.now := by decide

/-- While the entry of a host is not valid, its packets are rejected, no challenge is sent
and nothing is changed; so the exchange is not tried again before the entry is removed. -/
theorem C77_unvalidated_silent (n : Node) (R : Nat → Nat → Nat) (s : State) (T orig ts r1 r2 : Nat) (g1 g2 : Junk)
    (e : Entry) (he : lookup s.table orig = some e) (hv : e.validated = false) :
    step n R s (.recv T none (some (orig, ts)) r1 r2 g1 g2) = (s, [], false) := by
  simp only [step, checkAuth, checkTimestamp, he, hv, Bool.not_false, if_true, List.nil_append]

/-- The entry that a challenge makes has an uninitialised time of validity: until that has
passed — it may be weeks ahead — the entry stays, and (by `C77_unvalidated_silent`) the host
is neither heard nor challenged.  Intended are the five seconds of the exchange. -/
theorem C77_entry_stays (n : Node) (R : Nat → Nat → Nat) (s : State) (T T' orig ts ts' r1 r2 : Nat) (g1 g2 : Junk)
    (sec : Int) (hn : lookup s.table orig = none) (hv : isTimedOut T' g2.valtime = false) :
    ∃ s' : State,
      (run n R s [.recv T none (some (orig, ts)) r1 r2 g1 g2, .tick T' sec]).1 = s' ∧
      step n R s' (.recv T' none (some (orig, ts')) r1 r2 g1 g2) = (s', [], false) := by
  refine ⟨_, rfl, ?_⟩
  refine C77_unvalidated_silent n R _ T' orig ts' r1 r2 g1 g2
    ⟨orig, 0, r2, false, g2.valtime, getTimestamp T exchangeHold⟩ ?_ rfl
  simp only [run, step, checkAuth, checkTimestamp, hn, sendChallenge, timeout, List.filter_cons, hv, Bool.false_and,
    Bool.not_false, if_true]
  simp only [lookup, List.find?_cons, beq_self_eq_true]

example : lookup init.table 2 = none ∧ isTimedOut (5000 + 2000000000) 2005005000 = false := by decide

/-- With the memory zeroed the entry is gone after the exchange time, and the host is
challenged again — for the first 2^31 ms (24 days) of the scheduler's clock. -/
theorem C77_retry_partial (n : Node) (R : Nat → Nat → Nat) (s : State) (T T' orig ts ts' r1 r2 : Nat) (g1 g2 : Junk)
    (sec : Int) (hn : lookup s.table orig = none) (hv : g2.valtime = 0) (h1 : T + 5000 ≤ T') (h2 : T' ≤ 2147483648) :
    ∃ s' : State, (run n R s [.recv T none (some (orig, ts)) r1 r2 g1 g2, .tick T' sec]).1 = s' ∧
      (step n R s' (.recv T' none (some (orig, ts')) r1 r2 g1 g2)).2.1 = [.challenge n.main orig r2 true] := by
  refine ⟨_, rfl, ?_⟩
  have t1 : isTimedOut T' g2.valtime = true := by
    rw [hv]; unfold isTimedOut; rw [if_neg (by omega), decide_eq_true_eq]; omega
  have t2 : isTimedOut T' (getTimestamp T exchangeHold) = true := by
    have hg : getTimestamp T exchangeHold = T + 5000 := by
      unfold getTimestamp exchangeHold
      omega
    rw [hg]; unfold isTimedOut; rw [if_neg (by omega), decide_eq_true_eq]; omega
  have hf : lookup (s.table.filter (fun e => !(isTimedOut T' e.valtime && isTimedOut T' e.conftime))) orig = none := by
    unfold lookup at hn ⊢
    rw [List.find?_eq_none] at hn ⊢
    exact fun x hx => hn x (List.mem_filter.1 hx).1
  simp only [run, step, checkAuth, checkTimestamp, hn, sendChallenge, timeout, List.filter_cons, t1, t2, Bool.and_self,
    Bool.not_true, Bool.false_eq_true, if_false, hf, List.nil_append]

/-- If both hosts hear each other and send a challenge before the other's arrives, each drops
the challenge of the other: within the five seconds nobody responds, and nothing changes. -/
theorem C77_crossed_challenges (A B : Node) (R : Nat → Nat → Nat) (sA sB : State) (T1 T2 T3 T4 rA rB x tsA tsB : Nat)
    (g1 g2 : Junk) (nA : lookup sA.table B.main = none) (nB : lookup sB.table A.main = none)
    (h1 : T1 ≤ T3 ∧ T3 < T1 + 5000) (h2 : T2 ≤ T4 ∧ T4 < T2 + 5000) :
    ∃ A1 B1 mA mB,
      step A R sA (.recv (T1 % 4294967296) none (some (B.main, tsB)) x rA g1 g2) = (A1, [mA], false) ∧
      step B R sB (.recv (T2 % 4294967296) none (some (A.main, tsA)) x rB g1 g2) = (B1, [mB], false) ∧
      step A R A1 (.recv (T3 % 4294967296) (some mB) (some (B.main, tsB)) x x g1 g2) = (A1, [], false) ∧
      step B R B1 (.recv (T4 % 4294967296) (some mA) (some (A.main, tsA)) x x g1 g2) = (B1, [], false) := by
  have hW : (4294967296 : Nat) = W := rfl
  have k1 : isTimedOut (T3 % 4294967296) (getTimestamp (T1 % 4294967296) exchangeHold) = false := by
    rw [hW]; exact C07_not_expired_before T1 5000 T3 (by decide) h1.1 h1.2
  have k2 : isTimedOut (T4 % 4294967296) (getTimestamp (T2 % 4294967296) exchangeHold) = false := by
    rw [hW]; exact C07_not_expired_before T2 5000 T4 (by decide) h2.1 h2.2
  refine ⟨⟨⟨B.main, 0, rA, false, g2.valtime, getTimestamp (T1 % 4294967296) exchangeHold⟩ :: sA.table, sA.now⟩,
    ⟨⟨A.main, 0, rB, false, g2.valtime, getTimestamp (T2 % 4294967296) exchangeHold⟩ :: sB.table, sB.now⟩,
    .challenge A.main B.main rA true, .challenge B.main A.main rB true, ?_, ?_, ?_, ?_⟩
  · simp only [step, checkAuth, checkTimestamp, nA, sendChallenge, List.nil_append]
  · simp only [step, checkAuth, checkTimestamp, nB, sendChallenge, List.nil_append]
  · cases ho : A.own A.main <;>
    simp only [step, checkAuth, parseChallenge, ho, checkTimestamp, lookup, List.find?_cons, beq_self_eq_true, k1,
      Bool.not_true, Bool.not_false, Bool.false_eq_true, if_true, if_false, List.nil_append]
  · cases ho : B.own B.main <;>
    simp only [step, checkAuth, parseChallenge, ho, checkTimestamp, lookup, List.find?_cons, beq_self_eq_true, k2,
      Bool.not_true, Bool.not_false, Bool.false_eq_true, if_true, if_false, List.nil_append]

/-- Anybody can stop the exchange with a host, without the key: a challenge with any signature
in the name of a host that is not known yet makes an entry out of uninitialised memory, which
makes the node ignore the challenges of the real host as long as the time in that memory has
not passed, and its packets as well. -/
theorem C77_forged_challenge_blocks (n : Node) (R : Nat → Nat → Nat) (s : State) (T T' o d c c' ts r1 r2 : Nat)
    (g : Junk) (g1 g2 : Junk) (hd : n.own d = true) (hn : lookup s.table o = none)
    (hv : g.validated = false) (hc : isTimedOut T' g.conftime = false) :
    ∃ s' : State,
      step n R s (.recv T (some (.challenge o d c false)) none r1 r2 g g1) = (s', [], false) ∧
      step n R s' (.recv T' (some (.challenge o d c' true)) (some (o, ts)) r1 r2 g1 g2) = (s', [], false) ∧
      step n R s' (.recv T' none (some (o, ts)) r1 r2 g1 g2) = (s', [], false) := by
  refine ⟨⟨⟨o, g.diff, g.challenge, g.validated, g.valtime, g.conftime⟩ :: s.table, s.now⟩, ?_, ?_, ?_⟩
  · simp only [step, checkAuth, parseChallenge, hd, hn, Bool.not_true, Bool.not_false, Bool.false_eq_true, if_true, if_false]
  · simp only [step, checkAuth, parseChallenge, hd, checkTimestamp, lookup, List.find?_cons, beq_self_eq_true, hc, hv,
      Bool.not_true, Bool.not_false, Bool.false_eq_true, if_true, if_false, List.nil_append]
  · simp only [step, checkAuth, checkTimestamp, lookup, List.find?_cons, beq_self_eq_true, hv,
      Bool.not_false, if_true, List.nil_append]

example : exN.own 1 = true ∧ isTimedOut 70000 80000 = false := by decide

/-- The plug-in's idea of the time is zero until its timer has fired once.  A response handled
before that registers an offset that is wrong by the whole time of day: after the first tick
every packet of the host is rejected for as long as the entry lives. -/
theorem C77_first_seconds (n : Node) (R : Nat → Nat → Nat) (T T' : Nat) (o d ch ts ts' chal r1 r2 v cf : Nat) (g1 g2 : Junk)
    (sec : Int) (ho : n.own d = true) (hsec : 100 ≤ sec ∧ sec < 2147483648) (hts : ts < 2147483648)
    (hts' : ts ≤ ts' ∧ ts' ≤ ts + 40) (hv : isTimedOut T' (getTimestamp T 30000) = false) :
    ∃ s' : State,
      (run n R ⟨[⟨o, 0, ch, false, v, cf⟩], init.now⟩
        [.recv T (some (.cres o d chal ts (R ch o) true)) none r1 r2 g1 g2, .tick T' sec]).1 = s' ∧
      (∃ e, lookup s'.table o = some e ∧ e.validated = true) ∧ s'.now = sec ∧
      step n R s' (.recv T' none (some (o, ts')) r1 r2 g1 g2) = (s', [], false) := by
  have hd : toInt (0 - (ts : Int)) = -ts := by unfold toInt; omega
  have hx : toInt (-(ts : Int) - (sec - ts')) < -3 := by unfold toInt; omega
  have hr : (run n R ⟨[⟨o, 0, ch, false, v, cf⟩], init.now⟩
        [.recv T (some (.cres o d chal ts (R ch o) true)) none r1 r2 g1 g2, .tick T' sec]).1 =
      ⟨[⟨o, -ts, 0, true, getTimestamp T stampHold, cf⟩], sec⟩ := by
    have hv' : isTimedOut T' (getTimestamp T stampHold) = false := hv
    simp only [run, step, checkAuth, parseCres, ho, Bool.not_true, Bool.false_eq_true, if_false, lookup, List.find?_cons,
      beq_self_eq_true, ne_eq, not_true_eq_false, register, update, if_true, init, hd, timeout, List.filter_cons, hv',
      Bool.false_and, Bool.not_false, List.filter_nil]
  refine ⟨_, hr, ⟨⟨o, -ts, 0, true, getTimestamp T stampHold, cf⟩, ?_, rfl⟩, rfl, ?_⟩
  · simp only [lookup, List.find?_cons, beq_self_eq_true]
  · simp only [step, checkAuth, checkTimestamp, lookup, List.find?_cons, beq_self_eq_true, Bool.not_true,
      Bool.false_eq_true, if_false, List.nil_append, hx, or_true, if_true]

example : (100 : Int) ≤ 1700000000 ∧ isTimedOut 12000 (getTimestamp 800 30000) = false := by decide

end Verif.SecAuth
