import Verif.ProcLemmas

/-!
# C132: the kernel settings after the daemon
-/

namespace Verif.Proc

/-! ## Specification: the files if there were no daemon -/

/-- What the kernel does by itself with the files of a device. -/
def kernel (f : Files) : Ev → Files
  | .appear n r sp => fun k =>
    match k with
    | .devRedirect m => if m = n then some r else f k
    | .devSpoof m => if m = n then some sp else f k
    | _ => f k
  | .vanish n => fun k =>
    match k with
    | .devRedirect m => if m = n then none else f k
    | .devSpoof m => if m = n then none else f k
    | _ => f k
  | _ => f

/-- An event that does no harm: an interface that is touched becomes a mesh interface, a mesh interface
is only removed when its device is gone, and a device does not come back while its interface is there. -/
def Calm (s : St) : Ev → Prop
  | .up _ _ done => done = true
  | .down i => ∀ x, s.ifs[i]? = some x →
      s.files (.devRedirect x.name) = none ∧ s.files (.devSpoof x.name) = none
  | .appear n r sp => (∀ x ∈ s.ifs, x.name ≠ n) ∧ r ≠ 0 ∧ sp ≠ 0
  | .vanish _ => True

/-- All events of a run are calm. -/
def CalmRun (c : Cfg) (s : St) : List Ev → Prop
  | [] => True
  | e :: es => Calm s e ∧ CalmRun c (step c s e) es

/-! ## The invariant -/

private structure Inv (c : Cfg) (s : St) (b : Files) : Prop where
  nz : ∀ k, b k ≠ some 0
  fwd : if c.setFwd = true then D (s.files .fwd) (b .fwd) [s.oFwd] one else s.files .fwd = b .fwd
  tun : if c.smart = true ∧ (c.v4 = true ∨ c.niit = true) then
    D (s.files .tunnel) (b .tunnel) [s.oTunnel] zero else s.files .tunnel = b .tunnel
  red : if c.v4 = true then D (s.files .redirect) (b .redirect) [s.oRedirect] zero
    else s.files .redirect = b .redirect
  spo : if c.v4 = true ∧ c.new = true then D (s.files .spoof) (b .spoof) [s.oSpoof] zero
    else s.files .spoof = b .spoof
  dr : ∀ n, D (s.files (.devRedirect n)) (b (.devRedirect n)) (redirects n s.ifs) zero
  ds : ∀ n, D (s.files (.devSpoof n)) (b (.devSpoof n)) (spoofs n s.ifs) zero
  v6 : c.v4 = false → ∀ n, s.files (.devRedirect n) = b (.devRedirect n) ∧
    s.files (.devSpoof n) = b (.devSpoof n)

private theorem old_eq (f : Files) (k : Key) (ok : Bool) (d : Nat) : old f k ok d = O (f k) ok d := by
  unfold old O
  cases f k <;> rfl

private theorem D.single {cur : Option Nat} {t : Nat} (ht : t ≠ 0) (ok : Bool) :
    D (W cur t ok) cur [O cur ok 0] t :=
  (D.refl cur t [] (by intro r h; cases h)).write ht ok

private theorem W_zero (cur : Option Nat) (ok : Bool) : W cur 0 ok = cur := by
  unfold W
  cases cur with
  | none => rfl
  | some v => simp only []; rw [if_neg (fun h => h.2.2 rfl)]

private theorem one_ne : one ≠ 0 := by decide
private theorem zero_ne : Proc.zero ≠ 0 := by decide

private theorem start_inv (c : Cfg) (f : Files) (ok : Key → Bool) (hf : ∀ k, f k ≠ some 0) :
    Inv c (start c ok (init f)) f := by
  have base : ∀ n, (start c ok (init f)).files (.devRedirect n) = f (.devRedirect n) ∧
      (start c ok (init f)).files (.devSpoof n) = f (.devSpoof n) := by
    intro n
    unfold start startSpoof startRedirect startTunnel startFwd init
    constructor <;> (repeat' split) <;> simp [wr_at]
  have hifs : (start c ok (init f)).ifs = [] := by
    unfold start startSpoof startRedirect startTunnel startFwd init
    (repeat' split) <;> rfl
  refine ⟨hf, ?_, ?_, ?_, ?_, fun n => ?_, fun n => ?_, fun _ => base⟩
  · by_cases h : c.setFwd = true
    · rw [if_pos h]
      have h1 : (start c ok (init f)).files .fwd = W (f .fwd) one (ok .fwd) := by
        unfold start startSpoof startRedirect startTunnel startFwd init
        (repeat' split) <;> simp [wr_at]
      have h2 : (start c ok (init f)).oFwd = O (f .fwd) (ok .fwd) 0 := by
        unfold start startSpoof startRedirect startTunnel startFwd init
        (repeat' split) <;> simp [old_eq]
      rw [h1, h2]
      exact D.single one_ne _
    · rw [if_neg h]
      unfold start startSpoof startRedirect startTunnel startFwd init
      simp only [if_neg h]
      (repeat' split) <;> simp [wr_at, W_zero]
  · by_cases h : c.smart = true ∧ (c.v4 = true ∨ c.niit = true)
    · rw [if_pos h]
      have h1 : (start c ok (init f)).files .tunnel = W (f .tunnel) zero (ok .tunnel) := by
        unfold start startSpoof startRedirect startTunnel startFwd init
        simp only [if_pos h]
        (repeat' split) <;> simp [wr_at]
      have h2 : (start c ok (init f)).oTunnel = O (f .tunnel) (ok .tunnel) 0 := by
        unfold start startSpoof startRedirect startTunnel startFwd init
        simp only [if_pos h]
        (repeat' split) <;> simp [old_eq, wr_at]
      rw [h1, h2]
      exact D.single zero_ne _
    · rw [if_neg h]
      unfold start startSpoof startRedirect startTunnel startFwd init
      simp only [if_neg h]
      (repeat' split) <;> simp [wr_at]
  · by_cases h : c.v4 = true
    · rw [if_pos h]
      have h1 : (start c ok (init f)).files .redirect = W (f .redirect) zero (ok .redirect) := by
        unfold start startSpoof startRedirect startTunnel startFwd init
        simp only [h]
        (repeat' split) <;> simp_all [wr_at]
      have h2 : (start c ok (init f)).oRedirect = O (f .redirect) (ok .redirect) 0 := by
        unfold start startSpoof startRedirect startTunnel startFwd init
        simp only [h]
        (repeat' split) <;> simp_all [old_eq, wr_at]
      rw [h1, h2]
      exact D.single zero_ne _
    · rw [if_neg h]
      unfold start startSpoof startRedirect startTunnel startFwd init
      simp only [if_neg h]
      (repeat' split) <;> simp_all [wr_at]
  · by_cases h : c.v4 = true ∧ c.new = true
    · rw [if_pos h]
      have h1 : (start c ok (init f)).files .spoof = W (f .spoof) zero (ok .spoof) := by
        unfold start startSpoof startRedirect startTunnel startFwd init
        simp only [if_pos h]
        (repeat' split) <;> simp_all [wr_at]
      have h2 : (start c ok (init f)).oSpoof = O (f .spoof) (ok .spoof) 0 := by
        unfold start startSpoof startRedirect startTunnel startFwd init
        simp only [if_pos h]
        (repeat' split) <;> simp_all [old_eq, wr_at]
      rw [h1, h2]
      exact D.single zero_ne _
    · rw [if_neg h]
      unfold start startSpoof startRedirect startTunnel startFwd init
      simp only [if_neg h]
      (repeat' split) <;> simp [wr_at]
  · rw [(base n).1, hifs]
    exact D.refl _ _ _ (by intro r h; cases h)
  · rw [(base n).2, hifs]
    exact D.refl _ _ _ (by intro r h; cases h)

private theorem redirects_cons (n : Nat) (i : If) (l : List If) :
    redirects n (i :: l) = if i.name = n then i.redirect :: redirects n l else redirects n l := by
  unfold redirects
  by_cases h : i.name = n
  · rw [if_pos h, List.filter_cons_of_pos (by simp [h])]; rfl
  · rw [if_neg h, List.filter_cons_of_neg (by simp [h])]

private theorem spoofs_cons (n : Nat) (i : If) (l : List If) :
    spoofs n (i :: l) = if i.name = n then i.spoof :: spoofs n l else spoofs n l := by
  unfold spoofs
  by_cases h : i.name = n
  · rw [if_pos h, List.filter_cons_of_pos (by simp [h])]; rfl
  · rw [if_neg h, List.filter_cons_of_neg (by simp [h])]

private theorem up_inv {c : Cfg} {s : St} {b : Files} (h : Inv c s b) (n : Nat) (ok : Key → Bool) :
    Inv c (up c n ok true s) b := by
  have hzero : Inv c { s with ifs := { name := n, redirect := 0, spoof := 0 } :: s.ifs } b := by
    refine ⟨h.nz, h.fwd, h.tun, h.red, h.spo, fun m => ?_, fun m => ?_, h.v6⟩
    · simp only []
      rw [redirects_cons]
      by_cases hm : n = m
      · rw [if_pos hm]
        exact (h.dr m).zero
      · rw [if_neg hm]
        exact h.dr m
    · simp only []
      rw [spoofs_cons]
      by_cases hm : n = m
      · rw [if_pos hm]
        exact (h.ds m).zero
      · rw [if_neg hm]
        exact h.ds m
  unfold up
  simp only [if_true]
  by_cases h4 : c.v4 = true
  · rw [if_pos h4]
    by_cases hs : succ s.files (.devRedirect n) (ok (.devRedirect n)) = true
    · rw [if_pos hs]
      refine ⟨h.nz, ?_, ?_, ?_, ?_, fun m => ?_, fun m => ?_, fun h6 => ?_⟩
      · have := h.fwd
        simp only [wr_at, reduceCtorEq, if_false]
        exact this
      · have := h.tun
        simp only [wr_at, reduceCtorEq, if_false]
        exact this
      · have := h.red
        simp only [wr_at, reduceCtorEq, if_false]
        exact this
      · have := h.spo
        simp only [wr_at, reduceCtorEq, if_false]
        exact this
      · simp only [wr_at, reduceCtorEq, if_false]
        rw [redirects_cons]
        by_cases hm : m = n
        · subst hm
          rw [if_pos rfl, if_pos rfl]
          simp only [old_eq]
          exact (h.dr m).write zero_ne _
        · rw [if_neg (fun h2 => by injection h2 with h2; exact hm h2), if_neg (fun h => hm h.symm)]
          exact h.dr m
      · rw [spoofs_cons]
        by_cases hm : m = n
        · subst hm
          simp only [wr_at, reduceCtorEq, if_false, if_true, old_eq]
          exact (h.ds m).write zero_ne _
        · simp only [wr_at]
          rw [if_neg (fun h2 => by injection h2 with h2; exact hm h2), if_neg (by intro h; cases h),
            if_neg (fun h => hm h.symm)]
          exact h.ds m
      · rw [h4] at h6
        cases h6
    · rw [if_neg hs]
      exact hzero
  · rw [if_neg h4]
    exact hzero

private theorem erase_other {n : Nat} : ∀ (l : List If) (i : Nat) (x : If), l[i]? = some x → x.name ≠ n →
    (l.eraseIdx i).filter (fun x => decide (x.name = n)) = l.filter (fun x => decide (x.name = n)) := by
  intro l
  induction l with
  | nil => intro i x h; simp at h
  | cons a l ih =>
    intro i x h hn
    cases i with
    | zero =>
      simp only [List.getElem?_cons_zero, Option.some.injEq] at h
      subst h
      rw [List.eraseIdx_cons_zero, List.filter_cons_of_neg (by simp [hn])]
    | succ i =>
      rw [List.getElem?_cons_succ] at h
      rw [List.eraseIdx_cons_succ]
      by_cases ha : a.name = n
      · rw [List.filter_cons_of_pos (by simp [ha]), List.filter_cons_of_pos (by simp [ha]), ih i x h hn]
      · rw [List.filter_cons_of_neg (by simp [ha]), List.filter_cons_of_neg (by simp [ha]), ih i x h hn]

private theorem D.gone' {cur base : Option Nat} {rs rs' : List Nat} {t : Nat} (h : D cur base rs t)
    (hc : cur = none) : D cur base rs' t := by
  have hb := h.gone.mp hc
  subst hc
  subst hb
  exact ⟨Iff.rfl, fun hc => (hc rfl).elim, fun hd => (hd rfl).elim⟩

private theorem down_inv {c : Cfg} {s : St} {b : Files} (h : Inv c s b) (i : Nat)
    (hc : Calm s (.down i)) : Inv c (down i s) b := by
  unfold down
  cases hx : s.ifs[i]? with
  | none =>
    have : s.ifs.eraseIdx i = s.ifs := List.eraseIdx_of_length_le (List.getElem?_eq_none_iff.mp hx)
    rw [this]
    exact h
  | some x =>
    obtain ⟨h1, h2⟩ := hc x hx
    refine ⟨h.nz, h.fwd, h.tun, h.red, h.spo, fun n => ?_, fun n => ?_, h.v6⟩
    · by_cases hn : x.name = n
      · subst hn
        exact (h.dr x.name).gone' h1
      · unfold redirects
        rw [erase_other _ _ _ hx hn]
        exact h.dr n
    · by_cases hn : x.name = n
      · subst hn
        exact (h.ds x.name).gone' h2
      · unfold spoofs
        rw [erase_other _ _ _ hx hn]
        exact h.ds n

private theorem none_of_name {n : Nat} {l : List If} (h : ∀ x ∈ l, x.name ≠ n) :
    l.filter (fun x => decide (x.name = n)) = [] := by
  rw [List.filter_eq_nil_iff]
  intro x hx
  simp [h x hx]

private theorem step_inv {c : Cfg} {s : St} {b : Files} (h : Inv c s b) (e : Ev) (hc : Calm s e) :
    Inv c (step c s e) (kernel b e) := by
  cases e with
  | up n ok done =>
    cases (show done = true from hc)
    exact up_inv h n ok
  | down i => exact down_inv h i hc
  | appear n r sp =>
    obtain ⟨h1, h2, h3⟩ := hc
    unfold step kernel set
    refine ⟨?_, ?_, ?_, ?_, ?_, fun m => ?_, fun m => ?_, fun h6 m => ?_⟩
    · intro k
      cases k with
      | devRedirect m =>
        simp only []
        by_cases hm : m = n
        · rw [if_pos hm]; intro h; exact h2 (Option.some.inj h)
        · rw [if_neg hm]; exact h.nz _
      | devSpoof m =>
        simp only []
        by_cases hm : m = n
        · rw [if_pos hm]; intro h; exact h3 (Option.some.inj h)
        · rw [if_neg hm]; exact h.nz _
      | _ => exact h.nz _
    · exact h.fwd
    · exact h.tun
    · exact h.red
    · exact h.spo
    · by_cases hm : m = n
      · subst hm
        simp only [reduceCtorEq, if_false, if_true]
        unfold redirects
        rw [none_of_name h1]
        exact D.refl _ _ _ (by intro r h; cases h)
      · simp only [Key.devRedirect.injEq, hm, reduceCtorEq, if_false]
        exact h.dr m
    · by_cases hm : m = n
      · subst hm
        simp only [if_true]
        unfold spoofs
        rw [none_of_name h1]
        exact D.refl _ _ _ (by intro r h; cases h)
      · simp only [Key.devSpoof.injEq, hm, reduceCtorEq, if_false]
        exact h.ds m
    · have := h.v6 h6 m
      by_cases hm : m = n
      · simp [hm]
      · simp [hm, this]
  | vanish n =>
    unfold step kernel set
    refine ⟨?_, ?_, ?_, ?_, ?_, fun m => ?_, fun m => ?_, fun h6 m => ?_⟩
    · intro k
      cases k with
      | devRedirect m =>
        simp only []
        by_cases hm : m = n
        · rw [if_pos hm]; intro h; cases h
        · rw [if_neg hm]; exact h.nz _
      | devSpoof m =>
        simp only []
        by_cases hm : m = n
        · rw [if_pos hm]; intro h; cases h
        · rw [if_neg hm]; exact h.nz _
      | _ => exact h.nz _
    · exact h.fwd
    · exact h.tun
    · exact h.red
    · exact h.spo
    · by_cases hm : m = n
      · subst hm
        simp only [reduceCtorEq, if_false, if_true]
        exact ⟨Iff.rfl, fun hc => (hc rfl).elim, fun hd => (hd rfl).elim⟩
      · simp only [Key.devRedirect.injEq, hm, reduceCtorEq, if_false]
        exact h.dr m
    · by_cases hm : m = n
      · subst hm
        simp only [if_true]
        exact ⟨Iff.rfl, fun hc => (hc rfl).elim, fun hd => (hd rfl).elim⟩
      · simp only [Key.devSpoof.injEq, hm, reduceCtorEq, if_false]
        exact h.ds m
    · have := h.v6 h6 m
      by_cases hm : m = n
      · simp [hm]
      · simp [hm, this]

private theorem run_inv {c : Cfg} : ∀ (evs : List Ev) (s : St) (b : Files), Inv c s b → CalmRun c s evs →
    Inv c (evs.foldl (step c) s) (evs.foldl kernel b) := by
  intro evs
  induction evs with
  | nil => intro s b h _; exact h
  | cons e es ih =>
    intro s b h hc
    exact ih _ _ (step_inv h e hc.1) hc.2

private theorem stop_inv {c : Cfg} {s : St} {b : Files} (h : Inv c s b) :
    stop c (fun _ => true) s = b := by
  funext k
  unfold stop
  have hk : ∀ f : Files, (∀ n, k ≠ .devRedirect n) → (∀ n, k ≠ .devSpoof n) →
      stopIfs c (fun _ => true) s f k = f k := by
    intro f h1 h2
    unfold stopIfs
    by_cases h4 : c.v4 = true
    · rw [if_pos h4, restoreIfs_other k h1 h2]
    · rw [if_neg h4]
  cases k with
  | fwd =>
    rw [hk _ (by intro n h; cases h) (by intro n h; cases h)]
    have hf : stopSpoof c (fun _ => true) s (stopRedirect c (fun _ => true) s
        (stopTunnel c (fun _ => true) s (stopFwd c (fun _ => true) s s.files))) .fwd =
        stopFwd c (fun _ => true) s s.files .fwd := by
      unfold stopSpoof stopRedirect stopTunnel
      (repeat' split) <;> simp [restore_at]
    rw [hf]
    unfold stopFwd
    have := h.fwd
    by_cases hs : c.setFwd = true
    · rw [if_pos hs] at this ⊢
      rw [restore_at, if_pos rfl]
      exact D.restored (h.nz _) [s.oFwd] _ this
    · rw [if_neg hs] at this ⊢
      exact this
  | tunnel =>
    rw [hk _ (by intro n h; cases h) (by intro n h; cases h)]
    have hf : stopSpoof c (fun _ => true) s (stopRedirect c (fun _ => true) s
        (stopTunnel c (fun _ => true) s (stopFwd c (fun _ => true) s s.files))) .tunnel =
        stopTunnel c (fun _ => true) s s.files .tunnel := by
      unfold stopSpoof stopRedirect stopTunnel stopFwd
      (repeat' split) <;> simp [restore_at]
    rw [hf]
    unfold stopTunnel
    have := h.tun
    by_cases hs : c.smart = true ∧ (c.v4 = true ∨ c.niit = true)
    · rw [if_pos hs] at this ⊢
      rw [restore_at, if_pos rfl]
      exact D.restored (h.nz _) [s.oTunnel] _ this
    · rw [if_neg hs] at this ⊢
      exact this
  | redirect =>
    rw [hk _ (by intro n h; cases h) (by intro n h; cases h)]
    have hf : stopSpoof c (fun _ => true) s (stopRedirect c (fun _ => true) s
        (stopTunnel c (fun _ => true) s (stopFwd c (fun _ => true) s s.files))) .redirect =
        stopRedirect c (fun _ => true) s s.files .redirect := by
      unfold stopSpoof stopRedirect stopTunnel stopFwd
      (repeat' split) <;> simp [restore_at]
    rw [hf]
    unfold stopRedirect
    have := h.red
    by_cases hs : c.v4 = true
    · rw [if_pos hs] at this ⊢
      rw [restore_at, if_pos rfl]
      exact D.restored (h.nz _) [s.oRedirect] _ this
    · rw [if_neg hs] at this ⊢
      exact this
  | spoof =>
    rw [hk _ (by intro n h; cases h) (by intro n h; cases h)]
    have hf : stopSpoof c (fun _ => true) s (stopRedirect c (fun _ => true) s
        (stopTunnel c (fun _ => true) s (stopFwd c (fun _ => true) s s.files))) .spoof =
        stopSpoof c (fun _ => true) s s.files .spoof := by
      unfold stopSpoof stopRedirect stopTunnel stopFwd
      (repeat' split) <;> simp [restore_at]
    rw [hf]
    unfold stopSpoof
    have := h.spo
    by_cases hs : c.v4 = true ∧ c.new = true
    · rw [if_pos hs] at this ⊢
      rw [restore_at, if_pos rfl]
      exact D.restored (h.nz _) [s.oSpoof] _ this
    · rw [if_neg hs] at this ⊢
      exact this
  | devRedirect n =>
    have hf : stopSpoof c (fun _ => true) s (stopRedirect c (fun _ => true) s
        (stopTunnel c (fun _ => true) s (stopFwd c (fun _ => true) s s.files))) (.devRedirect n) =
        s.files (.devRedirect n) := by
      unfold stopSpoof stopRedirect stopTunnel stopFwd
      (repeat' split) <;> simp [restore_at]
    unfold stopIfs
    by_cases h4 : c.v4 = true
    · rw [if_pos h4, restoreIfs_redirect, hf]
      exact D.restored (h.nz _) _ _ (h.dr n)
    · rw [if_neg h4, hf]
      exact (h.v6 (by simpa using h4) n).1
  | devSpoof n =>
    have hf : stopSpoof c (fun _ => true) s (stopRedirect c (fun _ => true) s
        (stopTunnel c (fun _ => true) s (stopFwd c (fun _ => true) s s.files))) (.devSpoof n) =
        s.files (.devSpoof n) := by
      unfold stopSpoof stopRedirect stopTunnel stopFwd
      (repeat' split) <;> simp [restore_at]
    unfold stopIfs
    by_cases h4 : c.v4 = true
    · rw [if_pos h4, restoreIfs_spoof, hf]
      exact D.restored (h.nz _) _ _ (h.ds n)
    · rw [if_neg h4, hf]
      exact (h.v6 (by simpa using h4) n).2

/-! ## The theorems -/

/-- C132, partial. Whatever the configuration, whichever writes fail at the start and while interfaces
are brought up (also several alias interfaces of one device), and whatever devices come and go: after the
daemon has stopped, every file is as if there had been no daemon. Missing: all events must be calm (see
`C132_readdress_negation`, `C132_failed_negation`, `C132_reappear_negation`), and the writes at the end
must succeed. -/
theorem C132_restored_partial (c : Cfg) (f : Files) (ok : Key → Bool) (evs : List Ev)
    (hf : ∀ k, f k ≠ some 0) (hc : CalmRun c (start c ok (init f)) evs) :
    run c f ok evs (fun _ => true) = evs.foldl kernel f := by
  unfold run
  exact stop_inv (run_inv evs _ _ (start_inv c f ok hf) hc)

/-! ### What is set while the daemon runs -/

/-- C132. At the start, files that exist and can be written get the values that the daemon needs. -/
theorem C132_start (c : Cfg) (s : St) :
    (∀ v, s.files .fwd = some v → c.setFwd = true → (start c (fun _ => true) s).files .fwd = some 49) ∧
    (∀ v, s.files .redirect = some v → c.v4 = true →
      (start c (fun _ => true) s).files .redirect = some 48) ∧
    (∀ v, s.files .spoof = some v → c.v4 = true → c.new = true →
      (start c (fun _ => true) s).files .spoof = some 48) ∧
    (∀ v, s.files .tunnel = some v → c.smart = true → (c.v4 = true ∨ c.niit = true) →
      (start c (fun _ => true) s).files .tunnel = some 48) := by
  have hW : ∀ v t, t ≠ 0 → W (some v) t true = some t := by
    intro v t ht
    unfold W
    simp only [true_and]
    by_cases h : v = t
    · rw [if_neg (fun h2 => h2.1 h), h]
    · rw [if_pos ⟨h, ht⟩]
  refine ⟨fun v hv h => ?_, fun v hv h => ?_, fun v hv h h' => ?_, fun v hv h h' => ?_⟩
  · have : (start c (fun _ => true) s).files .fwd = W (s.files .fwd) one true := by
      unfold start startSpoof startRedirect startTunnel startFwd
      simp only [if_pos h]
      (repeat' split) <;> simp [wr_at]
    rw [this, hv]
    exact hW _ _ one_ne
  · have : (start c (fun _ => true) s).files .redirect = W (s.files .redirect) zero true := by
      unfold start startSpoof startRedirect startTunnel startFwd
      simp only [h]
      (repeat' split) <;> simp_all [wr_at]
    rw [this, hv]
    exact hW _ _ zero_ne
  · have : (start c (fun _ => true) s).files .spoof = W (s.files .spoof) zero true := by
      unfold start startSpoof startRedirect startTunnel startFwd
      simp only [h, h']
      (repeat' split) <;> simp_all [wr_at]
    rw [this, hv]
    exact hW _ _ zero_ne
  · have : (start c (fun _ => true) s).files .tunnel = W (s.files .tunnel) zero true := by
      unfold start startSpoof startRedirect startTunnel startFwd
      simp only [if_pos (show c.smart = true ∧ (c.v4 = true ∨ c.niit = true) from ⟨h, h'⟩)]
      (repeat' split) <;> simp_all [wr_at]
    rw [this, hv]
    exact hW _ _ zero_ne

/-- C132. With IPv4, an interface that is brought up has both of its settings off, in every state. -/
theorem C132_up (c : Cfg) (s : St) (n : Nat) (done : Bool) (v w : Nat) (h4 : c.v4 = true)
    (hv : s.files (.devRedirect n) = some v) (hw : s.files (.devSpoof n) = some w) :
    (step c s (.up n (fun _ => true) done)).files (.devRedirect n) = some 48 ∧
    (step c s (.up n (fun _ => true) done)).files (.devSpoof n) = some 48 := by
  have hW : ∀ v, W (some v) zero true = some 48 := by
    intro v
    unfold W
    simp only [true_and]
    by_cases h : v = zero
    · rw [if_neg (fun h2 => h2.1 h), h]; rfl
    · rw [if_pos ⟨h, zero_ne⟩]; rfl
  unfold step up
  simp only []
  rw [if_pos h4, if_pos (by unfold succ; rw [hv]; rfl)]
  simp only [wr_at, reduceCtorEq, if_false, if_true, hv, hw, hW, and_self]

/-! ### Devices that are not used -/

private theorem step_foreign (c : Cfg) (s : St) (b : Files) (n : Nat) (e : Ev)
    (he : ∀ ok done, e ≠ .up n ok done)
    (h : s.files (.devRedirect n) = b (.devRedirect n) ∧ s.files (.devSpoof n) = b (.devSpoof n) ∧
      ∀ x ∈ s.ifs, x.name ≠ n) :
    (step c s e).files (.devRedirect n) = kernel b e (.devRedirect n) ∧
    (step c s e).files (.devSpoof n) = kernel b e (.devSpoof n) ∧ ∀ x ∈ (step c s e).ifs, x.name ≠ n := by
  obtain ⟨h1, h2, h3⟩ := h
  cases e with
  | up m ok done =>
    have hm : n ≠ m := by
      intro h
      subst h
      exact he ok done rfl
    have hcons : ∀ r sp, ∀ x ∈ (if done = true then ({ name := m, redirect := r, spoof := sp } : If) :: s.ifs
        else s.ifs), x.name ≠ n := by
      intro r sp x hx
      cases done with
      | false => exact h3 x hx
      | true =>
        rcases List.mem_cons.mp hx with rfl | hx
        · exact fun h => hm h.symm
        · exact h3 x hx
    unfold step up kernel
    simp only []
    by_cases h4 : c.v4 = true
    · rw [if_pos h4]
      by_cases hs : succ s.files (.devRedirect m) (ok (.devRedirect m)) = true
      · rw [if_pos hs]
        refine ⟨?_, ?_, hcons _ _⟩
        · simp only [wr_at, reduceCtorEq, if_false, Key.devRedirect.injEq, hm]
          exact h1
        · simp only [wr_at, reduceCtorEq, if_false, Key.devSpoof.injEq, hm]
          exact h2
      · rw [if_neg hs]
        exact ⟨h1, h2, hcons _ _⟩
    · rw [if_neg h4]
      exact ⟨h1, h2, hcons _ _⟩
  | down i => exact ⟨h1, h2, fun x hx => h3 x (List.mem_of_mem_eraseIdx hx)⟩
  | appear m r sp =>
    unfold step kernel set
    refine ⟨?_, ?_, h3⟩
    · by_cases hm : n = m
      · simp [hm]
      · simp [hm, h1]
    · by_cases hm : n = m
      · simp [hm]
      · simp [hm, h2]
  | vanish m =>
    unfold step kernel set
    refine ⟨?_, ?_, h3⟩
    · by_cases hm : n = m
      · simp [hm]
      · simp [hm, h1]
    · by_cases hm : n = m
      · simp [hm]
      · simp [hm, h2]

private theorem restore_ne (f : Files) (k : Key) (o t : Nat) (ok : Bool) (k' : Key) (h : k' ≠ k) :
    restore f k o t ok k' = f k' := by
  unfold restore
  by_cases ho : o = t
  · rw [if_pos ho]
  · rw [if_neg ho, wr_at, if_neg h]

private theorem restoreIfs_foreign (ok : Key → Bool) (n : Nat) : ∀ (l : List If) (f : Files),
    (∀ x ∈ l, x.name ≠ n) → restoreIfs ok f l (.devRedirect n) = f (.devRedirect n) ∧
      restoreIfs ok f l (.devSpoof n) = f (.devSpoof n) := by
  intro l
  induction l with
  | nil => intro f _; exact ⟨rfl, rfl⟩
  | cons i is ih =>
    intro f h
    have hi := h i List.mem_cons_self
    unfold restoreIfs
    have := ih (restore (restore f (.devRedirect i.name) i.redirect zero (ok (.devRedirect i.name)))
        (.devSpoof i.name) i.spoof zero (ok (.devSpoof i.name))) (fun x hx => h x (List.mem_cons_of_mem _ hx))
    refine ⟨?_, ?_⟩
    · rw [this.1, restore_ne _ _ _ _ _ _ (by intro h; cases h),
        restore_ne _ _ _ _ _ _ (by intro h; injection h with h; exact hi h.symm)]
    · rw [this.2, restore_ne _ _ _ _ _ _ (by intro h; injection h with h; exact hi h.symm),
        restore_ne _ _ _ _ _ _ (by intro h; cases h)]

/-- C132. The settings of a device that is never brought up as a mesh interface are those without the
daemon, after every run, calm or not, and whatever fails. -/
theorem C132_foreign (c : Cfg) (f : Files) (okStart okStop : Key → Bool) (evs : List Ev) (n : Nat)
    (h : ∀ ok done, Ev.up n ok done ∉ evs) :
    run c f okStart evs okStop (.devRedirect n) = evs.foldl kernel f (.devRedirect n) ∧
    run c f okStart evs okStop (.devSpoof n) = evs.foldl kernel f (.devSpoof n) := by
  have hrun : ∀ (evs : List Ev) (s : St) (b : Files), (∀ ok done, Ev.up n ok done ∉ evs) →
      (s.files (.devRedirect n) = b (.devRedirect n) ∧ s.files (.devSpoof n) = b (.devSpoof n) ∧
        ∀ x ∈ s.ifs, x.name ≠ n) →
      ((evs.foldl (step c) s).files (.devRedirect n) = evs.foldl kernel b (.devRedirect n) ∧
        (evs.foldl (step c) s).files (.devSpoof n) = evs.foldl kernel b (.devSpoof n) ∧
        ∀ x ∈ (evs.foldl (step c) s).ifs, x.name ≠ n) := by
    intro evs
    induction evs with
    | nil => intro s b _ h; exact h
    | cons e es ih =>
      intro s b hn h
      exact ih _ _ (fun ok done hm => hn ok done (List.mem_cons_of_mem _ hm))
        (step_foreign c s b n e (fun ok done he => hn ok done (he ▸ List.mem_cons_self)) h)
  have hstart : (start c okStart (init f)).files (.devRedirect n) = f (.devRedirect n) ∧
      (start c okStart (init f)).files (.devSpoof n) = f (.devSpoof n) ∧
      ∀ x ∈ (start c okStart (init f)).ifs, x.name ≠ n := by
    refine ⟨?_, ?_, ?_⟩
    · unfold start startSpoof startRedirect startTunnel startFwd init
      (repeat' split) <;> simp [wr_at]
    · unfold start startSpoof startRedirect startTunnel startFwd init
      (repeat' split) <;> simp [wr_at]
    · have hifs : (start c okStart (init f)).ifs = [] := by
        unfold start startSpoof startRedirect startTunnel startFwd init
        (repeat' split) <;> rfl
      rw [hifs]
      intro x hx
      cases hx
  obtain ⟨h1, h2, h3⟩ := hrun evs _ f h hstart
  unfold run
  generalize evs.foldl (step c) (start c okStart (init f)) = s at *
  have hg : ∀ k, (k = .devRedirect n ∨ k = .devSpoof n) → stopSpoof c okStop s (stopRedirect c okStop s
      (stopTunnel c okStop s (stopFwd c okStop s s.files))) k = s.files k := by
    intro k hk
    have h1 : k ≠ .spoof := by rcases hk with h | h <;> subst h <;> intro h <;> cases h
    have h2 : k ≠ .redirect := by rcases hk with h | h <;> subst h <;> intro h <;> cases h
    have h3 : k ≠ .tunnel := by rcases hk with h | h <;> subst h <;> intro h <;> cases h
    have h4 : k ≠ .fwd := by rcases hk with h | h <;> subst h <;> intro h <;> cases h
    unfold stopSpoof stopRedirect stopTunnel stopFwd
    (repeat' split) <;> simp only [restore_ne _ _ _ _ _ _ h1, restore_ne _ _ _ _ _ _ h2,
      restore_ne _ _ _ _ _ _ h3, restore_ne _ _ _ _ _ _ h4]
  unfold stop stopIfs
  by_cases h4 : c.v4 = true
  · rw [if_pos h4]
    have := restoreIfs_foreign okStop n s.ifs (stopSpoof c okStop s (stopRedirect c okStop s
      (stopTunnel c okStop s (stopFwd c okStop s s.files)))) h3
    rw [this.1, this.2, hg _ (Or.inl rfl), hg _ (Or.inr rfl)]
    exact ⟨h1, h2⟩
  · rw [if_neg h4, hg _ (Or.inl rfl), hg _ (Or.inr rfl)]
    exact ⟨h1, h2⟩

/-! ### Runs that are not calm -/

private def cfg4 : Cfg := { v4 := true, setFwd := true, smart := true, niit := false, new := true }

/-- Device 0 with both settings on, everything on globally but forwarding. -/
private def f0 : Files
  | .fwd => some 48
  | .devRedirect n => if n = 0 then some 49 else none
  | .devSpoof n => if n = 0 then some 50 else none
  | _ => some 49

private def yes : Key → Bool := fun _ => true

/-- C132, negation. An interface is removed and made again while its device stays, as when its address
changes: the second time the daemon saves its own values, and the settings stay off for good. -/
theorem C132_readdress_negation :
    ∃ (c : Cfg) (f : Files) (evs : List Ev), (∀ k, f k ≠ some 0) ∧
      evs = [.up 0 yes true, .down 0, .up 0 yes true] ∧
      f (.devSpoof 0) = some 50 ∧ run c f yes evs yes (.devSpoof 0) = some 48 ∧
      f (.devRedirect 0) = some 49 ∧ run c f yes evs yes (.devRedirect 0) = some 48 :=
  ⟨cfg4, f0, _, by
    intro k
    cases k with
    | devRedirect n => unfold f0; simp only []; split <;> simp
    | devSpoof n => unfold f0; simp only []; split <;> simp
    | _ => decide, rfl, rfl, by decide, rfl, by decide⟩

/-- C132, negation. An interface that is in use no longer when the daemon stops is not restored. -/
theorem C132_removed_negation :
    ∃ (c : Cfg) (f : Files), f (.devSpoof 0) = some 50 ∧
      run c f yes [.up 0 yes true, .down 0] yes (.devSpoof 0) = some 48 :=
  ⟨cfg4, f0, rfl, by decide⟩

/-- C132, negation. If no socket can be made for an interface, its settings have been changed already
and are not restored. -/
theorem C132_failed_negation :
    ∃ (c : Cfg) (f : Files), f (.devSpoof 0) = some 50 ∧
      run c f yes [.up 0 yes false] yes (.devSpoof 0) = some 48 :=
  ⟨cfg4, f0, rfl, by decide⟩

/-- C132, negation. A device that is replaced between two looks at the interfaces gets the settings of
the old one. -/
theorem C132_reappear_negation :
    ∃ (c : Cfg) (f : Files) (evs : List Ev), evs.foldl kernel f (.devSpoof 0) = some 49 ∧
      evs = [.up 0 yes true, .vanish 0, .appear 0 49 49] ∧ run c f yes evs yes (.devSpoof 0) = some 50 :=
  ⟨cfg4, f0, _, by decide, rfl, by decide⟩

/-! ## Examples -/

/-- A run with a failing write, an alias interface and a device that goes and comes back. -/
private def evs0 : List Ev :=
  [.up 0 (fun k => decide (k ≠ .devSpoof 0)) true, .up 0 yes true, .appear 1 49 49, .up 1 yes true,
    .vanish 1, .down 0, .appear 1 48 50, .up 1 yes true]

example : CalmRun cfg4 (start cfg4 yes (init f0)) evs0 := by
  refine ⟨rfl, rfl, ⟨?_, by decide, by decide⟩, rfl, trivial, ?_, ⟨?_, by decide, by decide⟩, rfl, trivial⟩
  · decide
  · intro x hx
    cases hx
    exact ⟨by decide, by decide⟩
  · decide

example : (evs0.foldl (step cfg4) (start cfg4 yes (init f0))).files (.devSpoof 1) = some 48 ∧
    run cfg4 f0 yes evs0 yes (.devSpoof 1) = some 50 ∧ run cfg4 f0 yes evs0 yes (.devSpoof 0) = some 50 ∧
    run cfg4 f0 yes evs0 yes .fwd = some 48 ∧ run cfg4 f0 yes evs0 yes .tunnel = some 49 := by decide

example : ∀ ok done, Ev.up 2 ok done ∉ evs0 := by
  intro ok done h
  simp [evs0] at h

example : f0 (.devRedirect 0) = some 49 ∧ f0 (.devSpoof 0) = some 50 ∧ cfg4.v4 = true := by decide

end Verif.Proc
