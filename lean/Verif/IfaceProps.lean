import Verif.IfaceModel
/-
C129: the mesh interfaces follow the kernel.
-/
namespace Verif.Iface

/-! ### Specification -/

/-- The kernel has what is needed to use the interface, its address aside. -/
def Usable (c : Conf) (f : Cfg) (d : Dev) : Prop :=
  d.up = true ∧ d.carrier = true ∧ d.loop = false ∧
  (c.v6 = false → (f.bcast = none → (d.broadcast = true ∨ d.ptp = true) ∧ d.brd ≠ none) ∧ d.mask ≠ none)

/-- The entry agrees with the kernel and the configuration. -/
structure Fits (c : Conf) (f : Cfg) (d : Dev) (p : Ifp) : Prop where
  idx : p.idx = d.idx
  addr : (c.v6 = true ∨ f.src = none) → d.addr = some p.addr
  src : c.v6 = false → ∀ a, f.src = some a → p.addr = a
  mask : c.v6 = false → d.mask = some p.mask
  brd : c.v6 = false → f.bcast = none → ∃ b, d.brd = some b ∧ p.brd = if b = 0 then 4294967295 else b
  fixed : c.v6 = false → ∀ b, f.bcast = some b → p.brd = b
  mtu : ∀ m : Nat, d.mtu = some m → p.mtu = (m : Int) - (if c.v6 then 62 else 28)
  buf : ∀ m : Nat, d.mtu = some m → (m : Int) ≠ (if c.v6 then 62 else 28) → p.buf = (m : Int) - (if c.v6 then 62 else 28)

/-- The kernel has not given interface `k` another address or index while it has an entry. -/
def Same (os : Os) (s : St) : Prop :=
  ∀ k p d, s.interf k = some p → os k = some d → d.idx = p.idx ∧ ∀ a, d.addr = some a → a = p.addr

/-- The same for an event. -/
def SameEv (s : St) : Ev → Prop
  | .poll os => Same os s
  | .netlink os _ _ => Same os s
  | _ => True

/-- ... and for all events of a run. -/
def SameAll (c : Conf) (os : Os) (l : List Ev) : Prop := ∀ pre e post, l = pre ++ e :: post → SameEv (run c os pre) e

/-! ### Lemmas -/

private theorem set_self (g : Nat → Option Ifp) (k : Nat) (v : Option Ifp) : set g k v k = v := if_pos rfl
private theorem set_ne (g : Nat → Option Ifp) (k j : Nat) (v : Option Ifp) (h : j ≠ k) : set g k v j = g j := if_neg h

private theorem set_same (g : Nat → Option Ifp) (k : Nat) (v : Option Ifp) (h : g k = v) : set g k v = g := by
  funext i
  unfold set
  split
  · rename_i e; rw [e, h]
  · rfl

private theorem flagsOk_iff (c : Conf) (f : Cfg) (d : Dev) : flagsOk c f d = true ↔
    d.carrier = true ∧ d.up = true ∧ (c.v6 = true ∨ f.bcast ≠ none ∨ d.broadcast = true ∨ d.ptp = true) ∧ d.loop = false := by
  unfold flagsOk
  cases d.carrier <;> cases d.up <;> cases c.v6 <;> cases f.bcast <;> cases d.broadcast <;> cases d.ptp <;> cases d.loop <;> simp

private theorem usable_of (c : Conf) (f : Cfg) (d : Dev) (h1 : flagsOk c f d = true) (m b : Nat) (h2 : maskUp c d = some m) (h3 : brdUp c f d = some b) :
    Usable c f d := by
  obtain ⟨ha, hb, hc, hd⟩ := (flagsOk_iff c f d).1 h1
  refine ⟨hb, ha, hd, fun hv => ⟨fun hbc => ⟨?_, ?_⟩, ?_⟩⟩
  · rcases hc with hc | hc | hc
    · rw [hv] at hc; cases hc
    · exact absurd hbc hc
    · exact hc
  · intro hn
    unfold brdUp at h3
    rw [hv, if_neg (by decide), hbc, hn] at h3
    cases h3
  · intro hn
    unfold maskUp at h2
    rw [hv, if_neg (by decide), hn] at h2
    cases h2

private theorem of_usable (c : Conf) (f : Cfg) (d : Dev) (h : Usable c f d) :
    flagsOk c f d = true ∧ (∃ m, maskUp c d = some m) ∧ ∃ b, brdUp c f d = some b := by
  obtain ⟨h1, h2, h3, h4⟩ := h
  unfold maskUp brdUp
  cases hv : c.v6 with
  | true =>
    rw [if_pos rfl, if_pos rfl]
    exact ⟨(flagsOk_iff c f d).2 ⟨h2, h1, Or.inl hv, h3⟩, ⟨0, rfl⟩, ⟨0, rfl⟩⟩
  | false =>
    rw [if_neg (by decide), if_neg (by decide)]
    obtain ⟨h5, h6⟩ := h4 hv
    refine ⟨?_, Option.ne_none_iff_exists'.1 h6, ?_⟩
    · rw [flagsOk_iff]
      refine ⟨h2, h1, ?_, h3⟩
      cases hb : f.bcast with
      | some b => exact Or.inr (Or.inl (by intro h; cases h))
      | none => exact Or.inr (Or.inr (h5 hb).1)
    · cases hb : f.bcast with
      | some b => exact ⟨b, rfl⟩
      | none =>
        obtain ⟨b, hbb⟩ := Option.ne_none_iff_exists'.1 (h5 hb).2
        exact ⟨fixBrd b, by simp only [hbb, Option.map_some]⟩

/-- The three results of `chk_if_up`. -/
private theorem chkUp_cases (c : Conf) (f : Cfg) (od : Option Dev) (k : Nat) (s : St) :
    chkUp c f od k s = s ∨ chkUp c f od k s = { s with dead := true } ∨
    ∃ d a m b, od = some d ∧ flagsOk c f d = true ∧ addrUp c f d = some a ∧ maskUp c d = some m ∧ brdUp c f d = some b ∧
      chkUp c f od k s = install s k (fresh c d s.next a m b) := by
  cases od with
  | none => exact Or.inl rfl
  | some d =>
    simp only [chkUp]
    by_cases hf : flagsOk c f d = false
    · rw [if_pos hf]; exact Or.inl rfl
    · rw [if_neg hf]
      have hf : flagsOk c f d = true := by simpa using hf
      cases ha : addrUp c f d with
      | none => exact Or.inl rfl
      | some a =>
        cases hm : maskUp c d with
        | none => exact Or.inl rfl
        | some m =>
          cases hb : brdUp c f d with
          | none => exact Or.inl rfl
          | some b =>
            simp only []
            unfold sockets
            split
            · exact Or.inr (Or.inl rfl)
            · split
              · exact Or.inl rfl
              · exact Or.inr (Or.inr ⟨d, a, m, b, rfl, hf, ha, hm, hb, rfl⟩)

private theorem chkUp_usable (c : Conf) (f : Cfg) (d : Dev) (k : Nat) (s : St) (h : Usable c f d) (ha : d.addr ≠ none)
    (hr : d.recvOk = true) (hs : d.sendOk = true) : ∃ p, (chkUp c f (some d) k s).interf k = some p := by
  obtain ⟨h1, ⟨m, h2⟩, b, h3⟩ := of_usable c f d h
  have h4 : ∃ a, addrUp c f d = some a := by
    unfold addrUp
    split
    · exact Option.ne_none_iff_exists'.1 ha
    · split
      · exact ⟨_, rfl⟩
      · exact Option.ne_none_iff_exists'.1 ha
  obtain ⟨a, h4⟩ := h4
  refine ⟨fresh c d s.next a m b, ?_⟩
  simp only [chkUp]
  rw [if_neg (by rw [h1]; decide), h4, h2, h3]
  simp only [sockets]
  rw [if_neg (by rw [hr]; decide), if_neg (by rw [hs]; decide)]
  exact set_self _ _ _

private theorem chkUp_frame (c : Conf) (f : Cfg) (od : Option Dev) (k j : Nat) (s : St) (h : j ≠ k) :
    (chkUp c f od k s).interf j = s.interf j := by
  rcases chkUp_cases c f od k s with e | e | ⟨d, a, m, b, _, _, _, _, _, e⟩
  · rw [e]
  · rw [e]
  · rw [e]; exact set_ne _ _ _ _ h

private theorem chkUp_links (c : Conf) (f : Cfg) (od : Option Dev) (k : Nat) (s : St) : (chkUp c f od k s).links = s.links := by
  rcases chkUp_cases c f od k s with e | e | ⟨d, a, m, b, _, _, _, _, _, e⟩ <;> rw [e] <;> rfl

private theorem chkUp_dead (c : Conf) (f : Cfg) (od : Option Dev) (k : Nat) (s : St) (h : s.dead = true) : (chkUp c f od k s).dead = true := by
  rcases chkUp_cases c f od k s with e | e | ⟨d, a, m, b, _, _, _, _, _, e⟩
  · rw [e]; exact h
  · rw [e]
  · rw [e]; exact h

private theorem chkUp_orphans (c : Conf) (f : Cfg) (od : Option Dev) (k : Nat) (s : St) (h : s.interf k = none) : (chkUp c f od k s).orphans = s.orphans := by
  rcases chkUp_cases c f od k s with e | e | ⟨d, a, m, b, _, _, _, _, _, e⟩
  · rw [e]
  · rw [e]
  · rw [e]
    show left s k ++ s.orphans = _
    unfold left
    rw [h]; rfl

/-- The results of `chk_if_changed`. -/
private theorem chkChanged_cases (c : Conf) (f : Cfg) (od : Option Dev) (k : Nat) (p : Ifp) (s : St) :
    (chkChanged c f od k p s = removeIf c k p s ∧ ∀ d, od = some d → Usable c f d → d.addr = none) ∨
    (∃ d a, od = some d ∧ d.addr = some a ∧ a ≠ p.addr ∧ flagsOk c f d = true ∧
      ((chkChanged c f od k p s = removeIf c k { refresh c d p with addr := a } s ∧ (removeIf c k { refresh c d p with addr := a } s).dead = true) ∨
       chkChanged c f od k p s = chkUp c f od k (removeIf c k { refresh c d p with addr := a } s))) ∨
    (∃ d m b, od = some d ∧ d.addr = some p.addr ∧ flagsOk c f d = true ∧ maskChk c d p = some m ∧ brdChk c f d p = some b ∧
      chkChanged c f od k p s = { s with interf := set s.interf k (some { refresh c d p with mask := m, brd := b }) }) := by
  cases od with
  | none => exact Or.inl ⟨rfl, fun d h => by cases h⟩
  | some d =>
    simp only [chkChanged]
    by_cases hf : flagsOk c f d = false
    · rw [if_pos hf]
      refine Or.inl ⟨rfl, fun d' h hu => ?_⟩
      injection h with h
      rw [← h] at hu
      rw [(of_usable c f d hu).1] at hf
      cases hf
    · rw [if_neg hf]
      have hf : flagsOk c f d = true := by simpa using hf
      cases ha : d.addr with
      | none =>
        refine Or.inl ⟨rfl, fun d' h _ => ?_⟩
        injection h with h
        rw [← h]; exact ha
      | some a =>
        simp only []
        by_cases hne : a ≠ p.addr
        · rw [if_pos hne]
          refine Or.inr (Or.inl ⟨d, a, rfl, ha, hne, hf, ?_⟩)
          split
          · rename_i hd; exact Or.inl ⟨rfl, hd⟩
          · exact Or.inr rfl
        · rw [if_neg hne]
          have he : a = p.addr := Decidable.byContradiction hne
          have hnu : (maskChk c d p = none ∨ brdChk c f d p = none) → ¬ Usable c f d := by
            intro h hu
            obtain ⟨_, _, _, h4⟩ := hu
            unfold maskChk brdChk at h
            cases hv : c.v6 with
            | true => rw [hv, if_pos rfl, if_pos rfl] at h; rcases h with h | h <;> cases h
            | false =>
              obtain ⟨h5, h6⟩ := h4 hv
              rw [hv, if_neg (by decide), if_neg (by decide)] at h
              rcases h with h | h
              · exact h6 h
              · cases hb : f.bcast with
                | some b => rw [hb] at h; cases h
                | none =>
                  rw [hb] at h
                  have h7 := (h5 hb).2
                  cases hd : d.brd with
                  | none => exact h7 hd
                  | some x => rw [hd] at h; cases h
          cases hm : maskChk c d p with
          | none =>
            refine Or.inl ⟨rfl, fun d' h hu => ?_⟩
            injection h with h
            rw [← h] at hu
            exact absurd hu (hnu (Or.inl hm))
          | some m =>
            cases hb : brdChk c f d p with
            | none =>
              refine Or.inl ⟨rfl, fun d' h hu => ?_⟩
              injection h with h
              rw [← h] at hu
              exact absurd hu (hnu (Or.inr hb))
            | some b => exact Or.inr (Or.inr ⟨d, m, b, rfl, by rw [ha, he], hf, hm, hb, rfl⟩)

private theorem chkChanged_frame (c : Conf) (f : Cfg) (od : Option Dev) (k j : Nat) (p : Ifp) (s : St) (h : j ≠ k) :
    (chkChanged c f od k p s).interf j = s.interf j := by
  rcases chkChanged_cases c f od k p s with ⟨e, _⟩ | ⟨d, a, _, _, _, _, e⟩ | ⟨d, m, b, _, _, _, _, _, e⟩
  · rw [e]; exact set_ne _ _ _ _ h
  · rcases e with ⟨e, _⟩ | e
    · rw [e]; exact set_ne _ _ _ _ h
    · rw [e, chkUp_frame c f od k j _ h]; exact set_ne _ _ _ _ h
  · rw [e]; exact set_ne _ _ _ _ h

private theorem chkChanged_dead (c : Conf) (f : Cfg) (od : Option Dev) (k : Nat) (p : Ifp) (s : St) (h : s.dead = true) :
    (chkChanged c f od k p s).dead = true := by
  have hr : ∀ p, (removeIf c k p s).dead = true := by
    intro p
    show (s.dead || _) = true
    rw [h]; rfl
  rcases chkChanged_cases c f od k p s with ⟨e, _⟩ | ⟨d, a, _, _, _, _, e⟩ | ⟨d, m, b, _, _, _, _, _, e⟩
  · rw [e]; exact hr _
  · rcases e with ⟨e, _⟩ | e
    · rw [e]; exact hr _
    · rw [e]; exact chkUp_dead _ _ _ _ _ (hr _)
  · rw [e]; exact h

private theorem poll1_frame (c : Conf) (os : Os) (s : St) (j k : Nat) (h : k ≠ j) : (poll1 c os s j).interf k = s.interf k := by
  unfold poll1
  split
  · rfl
  · split
    · rfl
    · split
      · rfl
      · split
        · exact chkChanged_frame _ _ _ _ _ _ _ h
        · exact chkUp_frame _ _ _ _ _ _ h

private theorem poll1_dead (c : Conf) (os : Os) (s : St) (j : Nat) (h : s.dead = true) : poll1 c os s j = s := if_pos h

private theorem fold_dead (c : Conf) (os : Os) : ∀ (l : List Nat) (s : St), s.dead = true → l.foldl (poll1 c os) s = s
  | [], _, _ => rfl
  | j :: l, s, h => by rw [List.foldl_cons, poll1_dead c os s j h]; exact fold_dead c os l s h

private theorem fold_frame (c : Conf) (os : Os) (k : Nat) : ∀ (l : List Nat) (s : St), k ∉ l → (l.foldl (poll1 c os) s).interf k = s.interf k
  | [], _, _ => rfl
  | j :: l, s, h => by
    rw [List.foldl_cons, fold_frame c os k l _ (fun hm => h (List.mem_cons_of_mem _ hm))]
    exact poll1_frame c os s j k (fun e => h (by rw [e]; exact List.mem_cons_self))

/-- What a poll makes of one interface. -/
private theorem fold_at (c : Conf) (os : Os) (k : Nat) : ∀ (l : List Nat) (s : St), l.Nodup → k ∈ l →
    (l.foldl (poll1 c os) s).dead = false →
    ∃ t, t.dead = false ∧ t.interf k = s.interf k ∧ (poll1 c os t k).dead = false ∧ (l.foldl (poll1 c os) s).interf k = (poll1 c os t k).interf k
  | [], _, _, h, _ => by cases h
  | j :: l, s, hn, hm, hd => by
    rw [List.nodup_cons] at hn
    rw [List.foldl_cons] at hd ⊢
    have h1 : (poll1 c os s j).dead = false := by
      cases h : (poll1 c os s j).dead with
      | false => rfl
      | true => rw [fold_dead c os l _ h, h] at hd; cases hd
    have h0 : s.dead = false := by
      cases h : s.dead with
      | false => rfl
      | true => rw [poll1_dead c os s j h, h] at h1; cases h1
    rcases List.mem_cons.1 hm with e | hm
    · subst e
      exact ⟨s, h0, rfl, h1, fold_frame c os k l _ hn.1⟩
    · obtain ⟨t, ht1, ht2, ht3, ht4⟩ := fold_at c os k l _ hn.2 hm hd
      exact ⟨t, ht1, ht2.trans (poll1_frame c os s j k (fun e => hn.1 (by rw [← e]; exact hm))), ht3, ht4⟩

/-! ### What entries look like -/

/-- Kept by all events. -/
private structure Shape (c : Conf) (f : Cfg) (p : Ifp) : Prop where
  src : c.v6 = false → ∀ a, f.src = some a → p.addr = a
  fixed : c.v6 = false → ∀ b, f.bcast = some b → p.brd = b
  buf : p.mtu = 0 ∨ p.buf = p.mtu

private theorem fresh_shape (c : Conf) (f : Cfg) (d : Dev) (u a m b : Nat) (h1 : addrUp c f d = some a) (h2 : brdUp c f d = some b) :
    Shape c f (fresh c d u a m b) := by
  refine ⟨fun hv x hx => ?_, fun hv x hx => ?_, Or.inr rfl⟩
  · unfold addrUp at h1
    rw [hv, if_neg (by decide), hx] at h1
    injection h1 with h1
    exact h1.symm
  · unfold brdUp at h2
    rw [hv, if_neg (by decide), hx] at h2
    injection h2 with h2
    exact h2.symm

private theorem fresh_fits (c : Conf) (f : Cfg) (d : Dev) (u a m b : Nat) (h1 : addrUp c f d = some a) (h2 : brdUp c f d = some b)
    (h3 : maskUp c d = some m) : Fits c f d (fresh c d u a m b) := by
  have hs := fresh_shape c f d u a m b h1 h2
  refine ⟨rfl, fun h => ?_, hs.src, fun hv => ?_, fun hv hb => ?_, hs.fixed, fun m hm => ?_, fun m hm _ => ?_⟩
  · unfold addrUp at h1
    rcases h with h | h
    · rw [h, if_pos rfl] at h1; exact h1
    · rw [h] at h1
      cases hv : c.v6 <;> rw [hv] at h1
      · rw [if_neg (by decide)] at h1; exact h1
      · rw [if_pos rfl] at h1; exact h1
  · unfold maskUp at h3
    rw [hv, if_neg (by decide)] at h3
    exact h3
  · unfold brdUp at h2
    rw [hv, if_neg (by decide), hb] at h2
    cases hd : d.brd with
    | none => rw [hd] at h2; cases h2
    | some x =>
      rw [hd] at h2
      injection h2 with h2
      exact ⟨x, rfl, h2.symm⟩
  · show ((d.mtu.getD 1500 : Nat) : Int) - hdr c = _
    rw [hm]; rfl
  · show ((d.mtu.getD 1500 : Nat) : Int) - hdr c = _
    rw [hm]; rfl

private theorem refresh_addr (c : Conf) (d : Dev) (p : Ifp) : (refresh c d p).addr = p.addr ∧ (refresh c d p).idx = d.idx ∧
    (refresh c d p).uid = p.uid ∧ (refresh c d p).brd = p.brd ∧ (refresh c d p).sockAddr = p.sockAddr ∧ (refresh c d p).sockIdx = p.sockIdx := by
  unfold refresh
  split
  · exact ⟨rfl, rfl, rfl, rfl, rfl, rfl⟩
  · split <;> exact ⟨rfl, rfl, rfl, rfl, rfl, rfl⟩

private theorem refresh_mtu (c : Conf) (d : Dev) (p : Ifp) (h : p.mtu = 0 ∨ p.buf = p.mtu) :
    ((refresh c d p).mtu = 0 ∨ (refresh c d p).buf = (refresh c d p).mtu) ∧
    ∀ m : Nat, d.mtu = some m → (refresh c d p).mtu = (m : Int) - hdr c := by
  unfold refresh
  cases hd : d.mtu with
  | none => exact ⟨Or.inl rfl, fun m h => by cases h⟩
  | some m =>
    simp only []
    split
    · rename_i he
      refine ⟨h, fun m' hm => ?_⟩
      injection hm with hm
      rw [← hm]; exact he
    · refine ⟨Or.inr rfl, fun m' hm => ?_⟩
      injection hm with hm
      rw [← hm]

private theorem upd_shape (c : Conf) (f : Cfg) (d : Dev) (p : Ifp) (m b : Nat) (h : Shape c f p) (hb : brdChk c f d p = some b) :
    Shape c f { refresh c d p with mask := m, brd := b } := by
  obtain ⟨h1, _⟩ := refresh_addr c d p
  refine ⟨fun hv a ha => ?_, fun hv x hx => ?_, (refresh_mtu c d p h.buf).1⟩
  · show (refresh c d p).addr = a
    rw [h1]; exact h.src hv a ha
  · show b = x
    unfold brdChk at hb
    rw [hv, if_neg (by decide), hx] at hb
    injection hb with hb
    rw [← hb]; exact h.fixed hv x hx

private theorem upd_fits (c : Conf) (f : Cfg) (d : Dev) (p : Ifp) (m b : Nat) (h : Shape c f p) (ha : d.addr = some p.addr)
    (hm : maskChk c d p = some m) (hb : brdChk c f d p = some b) : Fits c f d { refresh c d p with mask := m, brd := b } := by
  have hs := upd_shape c f d p m b h hb
  obtain ⟨h1, h2, _⟩ := refresh_addr c d p
  obtain ⟨h3, h4⟩ := refresh_mtu c d p h.buf
  refine ⟨h2, fun _ => ?_, hs.src, fun hv => ?_, fun hv hbc => ?_, hs.fixed, h4, fun m hm hne => ?_⟩
  · show d.addr = some (refresh c d p).addr
    rw [h1]; exact ha
  · unfold maskChk at hm
    rw [hv, if_neg (by decide)] at hm
    exact hm
  · unfold brdChk at hb
    rw [hv, if_neg (by decide), hbc] at hb
    cases hd : d.brd with
    | none => rw [hd] at hb; cases hb
    | some x =>
      rw [hd] at hb
      injection hb with hb
      exact ⟨x, rfl, hb.symm⟩
  · show (refresh c d p).buf = _
    have h5 := h4 m hm
    rcases h3 with h3 | h3
    · rw [h5] at h3
      unfold hdr at h3
      omega
    · rw [h3, h5]; rfl

private def ShapeAll (c : Conf) (s : St) : Prop := ∀ k f p, c.ifs[k]? = some f → s.interf k = some p → Shape c f p

private theorem shape_chkUp (c : Conf) (f : Cfg) (od : Option Dev) (k : Nat) (s : St) (hf : c.ifs[k]? = some f) (h : ShapeAll c s) :
    ShapeAll c (chkUp c f od k s) := by
  rcases chkUp_cases c f od k s with e | e | ⟨d, a, m, b, _, _, h1, _, h3, e⟩
  · rw [e]; exact h
  · rw [e]; exact h
  · rw [e]
    intro j g p hg hp
    by_cases hj : j = k
    · rw [hj] at hg hp
      have hp : set s.interf k _ k = some p := hp
      rw [set_self] at hp
      injection hp with hp
      rw [hf] at hg
      injection hg with hg
      rw [← hg, ← hp]
      exact fresh_shape c f d s.next a m b h1 h3
    · have hp : set s.interf k _ j = some p := hp
      rw [set_ne _ _ _ _ hj] at hp
      exact h j g p hg hp

private theorem shape_remove (c : Conf) (k : Nat) (p : Ifp) (s : St) (h : ShapeAll c s) : ShapeAll c (removeIf c k p s) := by
  intro j g q hg hq
  have hq : set s.interf k none j = some q := hq
  by_cases hj : j = k
  · rw [hj, set_self] at hq; cases hq
  · rw [set_ne _ _ _ _ hj] at hq
    exact h j g q hg hq

private theorem shape_poll1 (c : Conf) (os : Os) (s : St) (k : Nat) (h : ShapeAll c s) : ShapeAll c (poll1 c os s k) := by
  unfold poll1
  split
  · exact h
  · cases hf : c.ifs[k]? with
    | none => exact h
    | some f =>
      simp only []
      split
      · exact h
      · cases hk : s.interf k with
        | none => exact shape_chkUp c f _ k s hf h
        | some p =>
          simp only []
          rcases chkChanged_cases c f (os k) k p s with ⟨e, _⟩ | ⟨d, a, _, _, _, _, e⟩ | ⟨d, m, b, _, _, _, hm, hb, e⟩
          · rw [e]; exact shape_remove c k p s h
          · rcases e with ⟨e, _⟩ | e
            · rw [e]; exact shape_remove c k _ s h
            · rw [e]; exact shape_chkUp c f _ k _ hf (shape_remove c k _ s h)
          · rw [e]
            intro j g q hg hq
            have hq : set s.interf k _ j = some q := hq
            by_cases hj : j = k
            · rw [hj] at hg hq
              rw [set_self] at hq
              injection hq with hq
              rw [hf] at hg
              injection hg with hg
              rw [← hg, ← hq]
              exact upd_shape c f d p m b (h k f p hf hk) hb
            · rw [set_ne _ _ _ _ hj] at hq
              exact h j g q hg hq

private theorem shape_fold (c : Conf) (os : Os) : ∀ (l : List Nat) (s : St), ShapeAll c s → ShapeAll c (l.foldl (poll1 c os) s)
  | [], _, h => h
  | j :: l, s, h => shape_fold c os l _ (shape_poll1 c os s j h)

private theorem shape_start (c : Conf) (os : Os) : ShapeAll c (start c os) := by
  have : ∀ (l : List Nat) (s : St), ShapeAll c s → ShapeAll c (l.foldl (start1 c os) s) := by
    intro l
    induction l with
    | nil => intro s h; exact h
    | cons j l ih =>
      intro s h
      apply ih
      unfold start1
      split
      · exact h
      · cases hf : c.ifs[j]? with
        | none => exact h
        | some f => exact shape_chkUp c f _ j s hf h
  exact this _ _ (fun k f p _ h => by cases h)

private theorem shape_step (c : Conf) (s : St) (e : Ev) (h : ShapeAll c s) : ShapeAll c (step c s e) := by
  cases e with
  | poll os => exact shape_fold c os _ s h
  | hello k r =>
    simp only [step]
    split
    · exact h
    · unfold hello
      split
      · exact h
      · split
        · exact h
        · exact h
  | expire k r =>
    simp only [step]
    split
    · exact h
    · exact h
  | netlink os i up =>
    simp only [step]
    unfold netlink
    split
    · exact h
    · split
      · split
        · split
          · exact h
          · exact shape_remove c _ _ s h
        · exact h
      · split
        · exact h
        · split
          · exact h
          · rename_i k _
            cases hf : c.ifs[k]? with
            | none => exact h
            | some f => exact shape_chkUp c f _ k s hf h

private theorem shape_run (c : Conf) (os : Os) (l : List Ev) : ShapeAll c (run c os l) := by
  have : ∀ (l : List Ev) (s : St), ShapeAll c s → ShapeAll c (l.foldl (step c) s) := by
    intro l
    induction l with
    | nil => intro s h; exact h
    | cons e l ih => intro s h; exact ih _ (shape_step c s e h)
  exact this l _ (shape_start c os)

private theorem lt_of_get (c : Conf) (k : Nat) (f : Cfg) (h : c.ifs[k]? = some f) : k ∈ List.range c.ifs.length := by
  rw [List.mem_range]
  exact (List.getElem?_eq_some_iff.1 h).1

/-! ### C129 -/

/-- After every check, an interface that is checked has an entry only if the kernel has what
it needs, index, addresses, MTU and buffer size are the present ones, and it has an entry
if it can be used. -/
theorem C129_poll (c : Conf) (os0 os : Os) (l : List Ev) (hd : (poll c os (run c os0 l)).dead = false)
    (k : Nat) (f : Cfg) (hf : c.ifs[k]? = some f) (hc : f.check = true) :
    (∀ p, (poll c os (run c os0 l)).interf k = some p → ∃ d, os k = some d ∧ Usable c f d ∧ Fits c f d p) ∧
    (∀ d, os k = some d → Usable c f d → d.addr ≠ none → d.recvOk = true → d.sendOk = true → (poll c os (run c os0 l)).interf k ≠ none) := by
  obtain ⟨t, ht1, ht2, ht3, ht4⟩ := fold_at c os k _ (run c os0 l) List.nodup_range (lt_of_get c k f hf) hd
  have hsh : ∀ p, t.interf k = some p → Shape c f p := fun p hp => shape_run c os0 l k f p hf (ht2 ▸ hp)
  have e1 : (poll c os (run c os0 l)).interf k = (poll1 c os t k).interf k := ht4
  rw [e1]
  have e2 : poll1 c os t k = match t.interf k with | some p => chkChanged c f (os k) k p t | none => chkUp c f (os k) k t := by
    unfold poll1
    rw [if_neg (by rw [ht1]; decide), hf]
    simp only []
    rw [if_neg (by rw [hc]; decide)]
    cases t.interf k <;> rfl
  have hup : ∀ u : St, u.interf k = none →
      (∀ p, (chkUp c f (os k) k u).interf k = some p → ∃ d, os k = some d ∧ Usable c f d ∧ Fits c f d p) ∧
      (∀ d, os k = some d → Usable c f d → d.addr ≠ none → d.recvOk = true → d.sendOk = true → (chkUp c f (os k) k u).interf k ≠ none) := by
    intro u hu
    constructor
    · intro p hp
      rcases chkUp_cases c f (os k) k u with e | e | ⟨d, a, m, b, h1, h2, h3, h4, h5, e⟩
      · rw [e, hu] at hp; cases hp
      · rw [e] at hp
        rw [show ({ u with dead := true } : St).interf k = none from hu] at hp
        cases hp
      · rw [e] at hp
        have hp : set u.interf k _ k = some p := hp
        rw [set_self] at hp
        injection hp with hp
        rw [← hp]
        exact ⟨d, h1, usable_of c f d h2 m b h4 h5, fresh_fits c f d u.next a m b h3 h5 h4⟩
    · intro d hd' hus ha hr hs
      obtain ⟨p, hp⟩ := chkUp_usable c f d k u hus ha hr hs
      rw [hd', hp]
      intro h; cases h
  cases hk : t.interf k with
  | none => rw [e2, hk]; exact hup t hk
  | some p =>
    rw [e2, hk]
    simp only []
    rcases chkChanged_cases c f (os k) k p t with ⟨e, hn⟩ | ⟨d, a, h1, h2, h3, h4, e⟩ | ⟨d, m, b, h1, h2, h3, hm, hb, e⟩
    · rw [e]
      have hnone : (removeIf c k p t).interf k = none := set_self _ _ _
      refine ⟨fun q hq => (by rw [hnone] at hq; cases hq), fun d hd' hu ha => absurd (hn d hd' hu) ha⟩
    · rcases e with ⟨e, hdd⟩ | e
      · rw [e2, hk] at ht3
        have ht3 : (chkChanged c f (os k) k p t).dead = false := ht3
        rw [e, hdd] at ht3
        cases ht3
      · rw [e]
        exact hup _ (set_self _ _ _)
    · rw [e]
      have hs : set t.interf k (some { refresh c d p with mask := m, brd := b }) k = _ := set_self _ _ _
      constructor
      · intro q hq
        have hq : set t.interf k (some { refresh c d p with mask := m, brd := b }) k = some q := hq
        rw [hs] at hq
        injection hq with hq
        rw [← hq]
        refine ⟨d, h1, ?_, upd_fits c f d p m b (hsh p hk) h2 hm hb⟩
        have hmu : ∃ m, maskUp c d = some m := by
          unfold maskUp
          unfold maskChk at hm
          split
          · exact ⟨0, rfl⟩
          · rename_i hv; rw [if_neg hv] at hm; exact ⟨m, hm⟩
        have hbu : ∃ b, brdUp c f d = some b := by
          unfold brdUp
          unfold brdChk at hb
          split
          · exact ⟨0, rfl⟩
          · rename_i hv
            rw [if_neg hv] at hb
            cases hbc : f.bcast with
            | none => rw [hbc] at hb; exact ⟨b, hb⟩
            | some x => exact ⟨x, rfl⟩
        obtain ⟨m', hmu⟩ := hmu
        obtain ⟨b', hbu⟩ := hbu
        exact usable_of c f d h3 m' b' hmu hbu
      · intro d' _ _ _ _ _ hn
        have hn : set t.interf k (some { refresh c d p with mask := m, brd := b }) k = none := hn
        rw [hs] at hn
        cases hn

/-! ### Quiet checks -/

private theorem refresh_same (c : Conf) (d : Dev) (p : Ifp) (m : Nat) (hm : d.mtu = some m) (h : p.mtu = (m : Int) - hdr c) (hi : p.idx = d.idx) :
    refresh c d p = p := by
  unfold refresh
  rw [hm]
  simp only []
  rw [if_pos h, ← hi]

private theorem quiet1 (c : Conf) (os : Os) (s : St) (k : Nat)
    (h : ∀ f, c.ifs[k]? = some f → f.check = true →
      (∀ p, s.interf k = some p → ∃ d, os k = some d ∧ Usable c f d ∧ Fits c f d p ∧ d.addr = some p.addr ∧ d.mtu ≠ none) ∧
      (s.interf k = none → ∀ d, os k = some d → ¬ Usable c f d)) : poll1 c os s k = s := by
  unfold poll1
  split
  · rfl
  · cases hf : c.ifs[k]? with
    | none => rfl
    | some f =>
      simp only []
      by_cases hc : f.check = false
      · rw [if_pos hc]
      · rw [if_neg hc]
        obtain ⟨h1, h2⟩ := h f hf (by simpa using hc)
        cases hk : s.interf k with
        | none =>
          simp only []
          cases ho : os k with
          | none => rfl
          | some d =>
            have hu := h2 hk d ho
            simp only [chkUp]
            by_cases hfl : flagsOk c f d = false
            · rw [if_pos hfl]
            · rw [if_neg hfl]
              have hfl : flagsOk c f d = true := by simpa using hfl
              cases ha : addrUp c f d with
              | none => rfl
              | some a =>
                cases hm : maskUp c d with
                | none => rfl
                | some m =>
                  cases hb : brdUp c f d with
                  | none => rfl
                  | some b => exact absurd (usable_of c f d hfl m b hm hb) hu
        | some p =>
          simp only []
          obtain ⟨d, ho, hu, hfit, ha, hmt⟩ := h1 p hk
          obtain ⟨mt, hmt⟩ := Option.ne_none_iff_exists'.1 hmt
          have hre := refresh_same c d p mt hmt (hfit.mtu mt hmt) hfit.idx
          have hm : maskChk c d p = some p.mask := by
            unfold maskChk
            cases hv : c.v6 with
            | true => rfl
            | false => exact hfit.mask hv
          have hb : brdChk c f d p = some p.brd := by
            unfold brdChk
            cases hv : c.v6 with
            | true => rfl
            | false =>
              rw [if_neg (by decide)]
              cases hbc : f.bcast with
              | some x => rfl
              | none =>
                obtain ⟨b, hb1, hb2⟩ := hfit.brd hv hbc
                simp only [hb1, Option.map_some]
                rw [hb2]; rfl
          rw [ho]
          simp only [chkChanged]
          rw [if_neg (by rw [(of_usable c f d hu).1]; decide), ha]
          simp only []
          rw [if_neg (fun h => h rfl), hm, hb]
          simp only []
          rw [hre, set_same s.interf k (some { p with mask := p.mask, brd := p.brd }) hk]

/-- A check changes nothing if the entries agree with the kernel. -/
theorem C129_quiet (c : Conf) (os : Os) (s : St)
    (h : ∀ k f, c.ifs[k]? = some f → f.check = true →
      (∀ p, s.interf k = some p → ∃ d, os k = some d ∧ Usable c f d ∧ Fits c f d p ∧ d.addr = some p.addr ∧ d.mtu ≠ none) ∧
      (s.interf k = none → ∀ d, os k = some d → ¬ Usable c f d)) : poll c os s = s := by
  have : ∀ l : List Nat, l.foldl (poll1 c os) s = s := by
    intro l
    induction l with
    | nil => rfl
    | cons j l ih => rw [List.foldl_cons, quiet1 c os s j (fun f hf hc => h j f hf hc)]; exact ih
  exact this _

/-! ### Links and sockets -/

private structure Inv (c : Conf) (s : St) : Prop where
  links : ∀ l ∈ s.links, ∃ p, s.interf l.name = some p ∧ p.uid = l.inter ∧ p.addr = l.loc
  socks : ∀ k p, s.interf k = some p → p.sockAddr = p.addr ∧ p.sockIdx = p.idx
  none : s.orphans = []
  range : ∀ k p, s.interf k = some p → k < c.ifs.length

private theorem inv_chkUp (c : Conf) (f : Cfg) (od : Option Dev) (k : Nat) (s : St) (hl : k < c.ifs.length) (h : Inv c s) (hk : s.interf k = none) :
    Inv c (chkUp c f od k s) := by
  have ho := chkUp_orphans c f od k s hk
  rcases chkUp_cases c f od k s with e | e | ⟨d, a, m, b, _, _, h1, _, h3, e⟩
  · rw [e]; exact h
  · rw [e]; exact ⟨h.links, h.socks, h.none, h.range⟩
  · refine ⟨fun l hl => ?_, fun j p hp => ?_, by rw [ho]; exact h.none, fun j p hp => ?_⟩
    · rw [chkUp_links] at hl
      obtain ⟨p, hp, h1, h2⟩ := h.links l hl
      refine ⟨p, ?_, h1, h2⟩
      rw [chkUp_frame c f od k l.name s (fun e => by rw [e, hk] at hp; cases hp)]
      exact hp
    · by_cases hj : j = k
      · rw [e, hj] at hp
        have hp : set s.interf k _ k = some p := hp
        rw [set_self] at hp
        injection hp with hp
        rw [← hp]
        exact ⟨rfl, rfl⟩
      · rw [chkUp_frame c f od k j s hj] at hp
        exact h.socks j p hp
    · by_cases hj : j = k
      · rw [hj]; exact hl
      · rw [chkUp_frame c f od k j s hj] at hp
        exact h.range j p hp

private theorem inv_remove (c : Conf) (k : Nat) (p : Ifp) (s : St) (h : Inv c s) (hk : s.interf k = some p) : Inv c (removeIf c k p s) := by
  refine ⟨fun l hl => ?_, fun j q hq => ?_, h.none, fun j q hq => ?_⟩
  · have hl : l ∈ s.links.filter (fun l => decide (l.loc ≠ p.addr)) := hl
    rw [List.mem_filter] at hl
    obtain ⟨q, hq, h1, h2⟩ := h.links l hl.1
    have hne : l.name ≠ k := by
      intro e
      rw [e, hk] at hq
      injection hq with hq
      rw [hq] at hl
      have := of_decide_eq_true hl.2
      exact this h2.symm
    exact ⟨q, by show set s.interf k none l.name = some q; rw [set_ne _ _ _ _ hne]; exact hq, h1, h2⟩
  · have hq : set s.interf k none j = some q := hq
    by_cases hj : j = k
    · rw [hj, set_self] at hq; cases hq
    · rw [set_ne _ _ _ _ hj] at hq; exact h.socks j q hq
  · have hq : set s.interf k none j = some q := hq
    by_cases hj : j = k
    · rw [hj, set_self] at hq; cases hq
    · rw [set_ne _ _ _ _ hj] at hq; exact h.range j q hq

private def SameK (os : Os) (s : St) (k : Nat) : Prop :=
  ∀ p d, s.interf k = some p → os k = some d → d.idx = p.idx ∧ ∀ a, d.addr = some a → a = p.addr

private theorem inv_poll1 (c : Conf) (os : Os) (s : St) (k : Nat) (h : Inv c s) (hs : SameK os s k) : Inv c (poll1 c os s k) := by
  unfold poll1
  split
  · exact h
  · cases hf : c.ifs[k]? with
    | none => exact h
    | some f =>
      simp only []
      split
      · exact h
      · cases hk : s.interf k with
        | none => exact inv_chkUp c f _ k s (List.mem_range.1 (lt_of_get c k f hf)) h hk
        | some p =>
          simp only []
          rcases chkChanged_cases c f (os k) k p s with ⟨e, _⟩ | ⟨d, a, h1, h2, h3, _, e⟩ | ⟨d, m, b, h1, _, _, hm, hb, e⟩
          · rw [e]; exact inv_remove c k p s h hk
          · exact absurd ((hs p d hk h1).2 a h2) h3
          · rw [e]
            obtain ⟨e1, e2, e3, e4, e5, e6⟩ := refresh_addr c d p
            refine ⟨fun l hl => ?_, fun j q hq => ?_, h.none, fun j q hq => ?_⟩
            · obtain ⟨q, hq, x1, x2⟩ := h.links l hl
              by_cases hn : l.name = k
              · rw [hn, hk] at hq
                injection hq with hq
                refine ⟨_, by show set s.interf k _ l.name = _; rw [hn]; exact set_self _ _ _, ?_, ?_⟩
                · show (refresh c d p).uid = l.inter
                  rw [e3, hq]; exact x1
                · show (refresh c d p).addr = l.loc
                  rw [e1, hq]; exact x2
              · exact ⟨q, by show set s.interf k _ l.name = _; rw [set_ne _ _ _ _ hn]; exact hq, x1, x2⟩
            · have hq : set s.interf k _ j = some q := hq
              by_cases hj : j = k
              · rw [hj, set_self] at hq
                injection hq with hq
                rw [← hq]
                obtain ⟨y1, y2⟩ := h.socks k p hk
                refine ⟨?_, ?_⟩
                · show (refresh c d p).sockAddr = (refresh c d p).addr
                  rw [e5, e1]; exact y1
                · show (refresh c d p).sockIdx = (refresh c d p).idx
                  rw [e6, e2, y2]; exact ((hs p d hk h1).1).symm
              · rw [set_ne _ _ _ _ hj] at hq; exact h.socks j q hq
            · have hq : set s.interf k _ j = some q := hq
              by_cases hj : j = k
              · rw [hj]; exact List.mem_range.1 (lt_of_get c k f hf)
              · rw [set_ne _ _ _ _ hj] at hq; exact h.range j q hq

private theorem inv_fold (c : Conf) (os : Os) : ∀ (l : List Nat) (s : St), l.Nodup → Inv c s → (∀ k ∈ l, SameK os s k) → Inv c (l.foldl (poll1 c os) s)
  | [], _, _, h, _ => h
  | j :: l, s, hn, h, hs => by
    rw [List.nodup_cons] at hn
    refine inv_fold c os l _ hn.2 (inv_poll1 c os s j h (hs j List.mem_cons_self)) (fun k hk p d hp hd => ?_)
    rw [poll1_frame c os s j k (fun e => hn.1 (by rw [← e]; exact hk))] at hp
    exact hs k (List.mem_cons_of_mem _ hk) p d hp hd

private theorem inv_start (c : Conf) (os : Os) : Inv c (start c os) := by
  have : ∀ (l : List Nat) (s : St), l.Nodup → Inv c s → (∀ k ∈ l, s.interf k = none) → Inv c (l.foldl (start1 c os) s) := by
    intro l
    induction l with
    | nil => intro s _ h _; exact h
    | cons j l ih =>
      intro s hn h hs
      rw [List.nodup_cons] at hn
      rw [List.foldl_cons]
      have hj := hs j List.mem_cons_self
      have key : Inv c (start1 c os s j) ∧ ∀ k, k ≠ j → (start1 c os s j).interf k = s.interf k := by
        unfold start1
        split
        · exact ⟨h, fun _ _ => rfl⟩
        · cases hf : c.ifs[j]? with
          | none => exact ⟨h, fun _ _ => rfl⟩
          | some f =>
            exact ⟨inv_chkUp c f _ j s (List.mem_range.1 (lt_of_get c j f hf)) h hj, fun k hk => chkUp_frame _ _ _ _ _ _ hk⟩
      refine ih _ hn.2 key.1 (fun k hk => ?_)
      rw [key.2 k (fun e => hn.1 (by rw [← e]; exact hk))]
      exact hs k (List.mem_cons_of_mem _ hk)
  exact this _ _ List.nodup_range ⟨fun l hl => (by cases hl), fun k p h => (by cases h), rfl, fun k p h => (by cases h)⟩ (fun _ _ => rfl)

private theorem withIndex_none (c : Conf) (s : St) (i k : Nat) (p : Ifp) (hk : k < c.ifs.length) (h : s.interf k = some p) (hi : p.idx = i) :
    withIndex c s i ≠ none := by
  intro hn
  unfold withIndex at hn
  rw [List.find?_eq_none] at hn
  have := hn k (List.mem_range.2 hk)
  simp only [h, hi] at this
  simp at this

private theorem inv_step (c : Conf) (s : St) (e : Ev) (h : Inv c s) (hs : SameEv s e) : Inv c (step c s e) := by
  cases e with
  | poll os => exact inv_fold c os _ s List.nodup_range h (fun k _ p d hp hd => hs k p d hp hd)
  | hello k r =>
    simp only [step]
    split
    · exact h
    · unfold hello
      cases hk : s.interf k with
      | none => exact h
      | some p =>
        simp only []
        split
        · exact h
        · refine ⟨fun l hl => ?_, h.socks, h.none, h.range⟩
          have hl : l ∈ s.links ++ [⟨k, p.uid, p.addr, r⟩] := hl
          rcases List.mem_append.1 hl with hl | hl
          · exact h.links l hl
          · rw [List.mem_singleton] at hl
            rw [hl]
            exact ⟨p, hk, rfl, rfl⟩
  | expire k r =>
    simp only [step]
    split
    · exact h
    · exact ⟨fun l hl => h.links l (List.mem_filter.1 hl).1, h.socks, h.none, h.range⟩
  | netlink os i up =>
    simp only [step]
    unfold netlink
    split
    · exact h
    · cases hw : withIndex c s i with
      | some k =>
        simp only []
        cases hk : s.interf k with
        | none => exact h
        | some p =>
          simp only []
          split
          · exact h
          · exact inv_remove c k p s h hk
      | none =>
        simp only []
        split
        · exact h
        · split
          · exact h
          · rename_i k hfind
            cases hf : c.ifs[k]? with
            | none => exact h
            | some f =>
              have hlt := List.mem_range.1 (lt_of_get c k f hf)
              refine inv_chkUp c f _ k s hlt h ?_
              cases hk : s.interf k with
              | none => rfl
              | some p =>
                exfalso
                have hfd := List.find?_some hfind
                cases ho : os k with
                | none => simp only [ho] at hfd; cases hfd
                | some d =>
                  simp only [ho] at hfd
                  have hfd := of_decide_eq_true hfd
                  have := (hs k p d hk ho).1
                  exact withIndex_none c s i k p hlt hk (by omega) hw

private theorem inv_run (c : Conf) (os : Os) (l : List Ev) (hs : SameAll c os l) : Inv c (run c os l) := by
  have : ∀ (post pre : List Ev), l = pre ++ post → Inv c (run c os pre) → Inv c (run c os l) := by
    intro post
    induction post with
    | nil => intro pre e h; rw [e, List.append_nil]; exact h
    | cons x post ih =>
      intro pre e h
      refine ih (pre ++ [x]) (by rw [e, List.append_assoc]; rfl) ?_
      have := inv_step c _ x h (hs pre x post e)
      unfold run
      rw [List.foldl_append]
      exact this
  exact this l [] rfl (inv_start c os)

/-- C129 (partial): every link refers to the entry of its interface and has its address, so
its neighbour is announced there; the sockets of an entry are bound to its address and
device; no entry is left behind.  Missing: the kernel has not changed address or index of
an interface while it had an entry; see `C129_links_negation`, `C129_index_negation`,
`C129_double_negation`. -/
theorem C129_links_partial (c : Conf) (os : Os) (l : List Ev) (hs : SameAll c os l) :
    (∀ x ∈ (run c os l).links, ∃ p, (run c os l).interf x.name = some p ∧ p.uid = x.inter ∧ p.addr = x.loc ∧
      x.remote ∈ announced x.name (run c os l)) ∧
    (∀ k p, (run c os l).interf k = some p → p.sockAddr = p.addr ∧ p.sockIdx = p.idx) ∧ (run c os l).orphans = [] := by
  have h := inv_run c os l hs
  refine ⟨fun x hx => ?_, h.socks, h.none⟩
  obtain ⟨p, h1, h2, h3⟩ := h.links x hx
  refine ⟨p, h1, h2, h3, ?_⟩
  unfold announced
  rw [h1]
  exact List.mem_map.2 ⟨x, List.mem_filter.2 ⟨hx, decide_eq_true h3.symm⟩, rfl⟩

/-! ### The end of the daemon -/

private theorem chkUp_alive (c : Conf) (f : Cfg) (od : Option Dev) (k : Nat) (s : St) (hr : ∀ d, od = some d → d.recvOk = true) :
    (chkUp c f od k s).dead = s.dead := by
  cases od with
  | none => rfl
  | some d =>
    simp only [chkUp]
    split
    · rfl
    · split
      · unfold sockets
        rw [if_neg (by rw [hr d rfl]; decide)]
        split <;> rfl
      · rfl

private theorem exit_fold (c : Conf) (os : Os) (hr : ∀ k d, os k = some d → d.recvOk = true) :
    ∀ (l : List Nat) (s : St), l.Nodup → (∀ k ∈ l, SameK os s k) → s.dead = false → (l.foldl (poll1 c os) s).dead = true →
    c.allowNone = false ∧ ∀ j p f, s.interf j = some p → c.ifs[j]? = some f →
      f.check = true ∧ ∀ d, os j = some d → Usable c f d → d.addr = none
  | [], s, _, _, h0, hd => by
    have hd : s.dead = true := hd
    rw [h0] at hd; cases hd
  | k :: l, s, hn, hs, h0, hd => by
    rw [List.nodup_cons] at hn
    rw [List.foldl_cons] at hd
    have hs' : ∀ j ∈ l, SameK os (poll1 c os s k) j := by
      intro j hj p d hp hd
      rw [poll1_frame c os s k j (fun e => hn.1 (by rw [← e]; exact hj))] at hp
      exact hs j (List.mem_cons_of_mem _ hj) p d hp hd
    have ih := exit_fold c os hr l (poll1 c os s k) hn.2 hs'
    -- the step at k
    have key : (∀ p, s.interf k = some p → (poll1 c os s k).interf k ≠ none ∨
        (∀ f, c.ifs[k]? = some f → f.check = true ∧ ∀ d, os k = some d → Usable c f d → d.addr = none)) ∧
        ((poll1 c os s k).dead = true → c.allowNone = false ∧ (∀ j, j ≠ k → j < c.ifs.length → s.interf j = none) ∧
          (∀ f, c.ifs[k]? = some f → f.check = true ∧ ∀ d, os k = some d → Usable c f d → d.addr = none)) := by
      unfold poll1
      rw [if_neg (by rw [h0]; decide)]
      cases hf : c.ifs[k]? with
      | none => exact ⟨fun p hp => Or.inl (by rw [hp]; intro h; cases h), fun h => by rw [h0] at h; cases h⟩
      | some f =>
        simp only []
        by_cases hc : f.check = false
        · rw [if_pos hc]
          exact ⟨fun p hp => Or.inl (by rw [hp]; intro h; cases h), fun h => by rw [h0] at h; cases h⟩
        · rw [if_neg hc]
          have hc : f.check = true := by simpa using hc
          cases hk : s.interf k with
          | none =>
            refine ⟨fun p hp => (by cases hp), fun h => ?_⟩
            simp only [] at h
            rw [chkUp_alive c f (os k) k s (hr k), h0] at h
            cases h
          | some p =>
            simp only []
            rcases chkChanged_cases c f (os k) k p s with ⟨e, hu⟩ | ⟨d, a, h1, h2, h3, _, e⟩ | ⟨d, m, b, h1, _, _, hm, hb, e⟩
            · rw [e]
              refine ⟨fun q hq => Or.inr (fun g hg => ?_), fun h => ?_⟩
              · injection hg with hg
                rw [← hg]; exact ⟨hc, hu⟩
              · have h : (s.dead || (!anyIf c { s with interf := set s.interf k none, links := s.links.filter (fun l => decide (l.loc ≠ p.addr)) } && !c.allowNone)) = true := h
                rw [Bool.or_eq_true, Bool.and_eq_true] at h
                have h : _ ∧ _ := h.resolve_left (by rw [h0]; decide)
                obtain ⟨ha, hb⟩ := h
                refine ⟨by simpa using hb, fun j hj hjl => ?_, fun g hg => ?_⟩
                · rw [Bool.not_eq_true'] at ha
                  unfold anyIf at ha
                  rw [Bool.or_eq_false_iff] at ha
                  have := List.any_eq_false.1 ha.1 j (List.mem_range.2 hjl)
                  have h9 : ¬ (set s.interf k none j).isSome = true := this
                  rw [set_ne _ _ _ _ hj] at h9
                  cases hj2 : s.interf j with
                  | none => rfl
                  | some q => rw [hj2] at h9; exact absurd rfl h9
                · injection hg with hg
                  rw [← hg]; exact ⟨hc, hu⟩
            · exact absurd ((hs k List.mem_cons_self p d hk h1).2 a h2) h3
            · rw [e]
              refine ⟨fun q hq => Or.inl ?_, fun h => ?_⟩
              · show set s.interf k _ k ≠ none
                rw [set_self]; intro h; cases h
              · have h : s.dead = true := h
                rw [h0] at h; cases h
    cases hd1 : (poll1 c os s k).dead with
    | true =>
      obtain ⟨h1, h2, h3⟩ := key.2 hd1
      refine ⟨h1, fun j p f hp hf => ?_⟩
      by_cases hj : j = k
      · rw [hj] at hf ⊢; exact h3 f hf
      · rw [h2 j hj (List.mem_range.1 (lt_of_get c j f hf))] at hp; cases hp
    | false =>
      obtain ⟨h1, h2⟩ := ih hd1 hd
      refine ⟨h1, fun j p f hp hf => ?_⟩
      by_cases hj : j = k
      · rw [hj] at hp hf ⊢
        rcases key.1 p hp with h | h
        · obtain ⟨q, hq⟩ := Option.ne_none_iff_exists'.1 h
          exact h2 k q f hq hf
        · exact h f hf
      · exact h2 j p f (by rw [poll1_frame c os s k j hj]; exact hp) hf

/-- C129 (partial): a check ends the daemon only if it is not allowed to be without
interfaces and none of those it had can be used any more.  Missing: the kernel must not
have changed an address, see `C129_exit_negation`; an interface that could be used from now
on does not prevent it, see `C129_turn_negation`. -/
theorem C129_exit_partial (c : Conf) (os0 os : Os) (l : List Ev) (hs : Same os (run c os0 l)) (hr : ∀ k d, os k = some d → d.recvOk = true)
    (h0 : (run c os0 l).dead = false) (hd : (poll c os (run c os0 l)).dead = true) :
    c.allowNone = false ∧ ∀ k p f, (run c os0 l).interf k = some p → c.ifs[k]? = some f →
      f.check = true ∧ ∀ d, os k = some d → Usable c f d → d.addr = none :=
  exit_fold c os hr _ _ List.nodup_range (fun k _ p d hp hd => hs k p d hp hd) h0 hd

private theorem hello_interf (k r : Nat) (s : St) : (hello k r s).interf = s.interf ∧ (hello k r s).dead = s.dead := by
  unfold hello
  split
  · exact ⟨rfl, rfl⟩
  · split
    · exact ⟨rfl, rfl⟩
    · exact ⟨rfl, rfl⟩

/-- Both sockets are needed: an entry is made only with both, and the daemon ends without
the first one. -/
theorem C129_socket (c : Conf) (os : Os) (s : St) (hd : (poll c os s).dead = false)
    (k : Nat) (f : Cfg) (hf : c.ifs[k]? = some f) (hc : f.check = true) (hk : s.interf k = none) (d : Dev) (ho : os k = some d) :
    (Usable c f d → d.addr ≠ none → d.recvOk = true) ∧ (∀ p, (poll c os s).interf k = some p → d.recvOk = true ∧ d.sendOk = true) := by
  obtain ⟨t, ht1, ht2, ht3, ht4⟩ := fold_at c os k _ s List.nodup_range (lt_of_get c k f hf) hd
  rw [hk] at ht2
  have e1 : (poll c os s).interf k = (poll1 c os t k).interf k := ht4
  have e2 : poll1 c os t k = chkUp c f (some d) k t := by
    unfold poll1
    rw [if_neg (by rw [ht1]; decide), hf]
    simp only []
    rw [if_neg (by rw [hc]; decide), ht2, ho]
  rw [e1]
  rw [e2] at ht3 ⊢
  simp only [chkUp] at ht3 ⊢
  constructor
  · intro hu ha
    obtain ⟨h1, ⟨m, h2⟩, b, h3⟩ := of_usable c f d hu
    have h4 : ∃ a, addrUp c f d = some a := by
      unfold addrUp
      split
      · exact Option.ne_none_iff_exists'.1 ha
      · split
        · exact ⟨_, rfl⟩
        · exact Option.ne_none_iff_exists'.1 ha
    obtain ⟨a, h4⟩ := h4
    rw [if_neg (by rw [h1]; decide), h4, h2, h3] at ht3
    cases hr : d.recvOk with
    | true => rfl
    | false =>
      simp only [sockets] at ht3
      rw [if_pos hr] at ht3
      cases ht3
  · intro p hp
    split at hp
    · rw [ht2] at hp; cases hp
    · split at hp
      · unfold sockets at hp
        split at hp
        · rw [show ({ t with dead := true } : St).interf k = t.interf k from rfl, ht2] at hp; cases hp
        · split at hp
          · rw [ht2] at hp; cases hp
          · rename_i h1 h2
            exact ⟨by simpa using h1, by simpa using h2⟩
      · rw [ht2] at hp; cases hp

/-- A link message: an entry with the index stays if the device is up and is removed with
its links if not; without an entry one is made for the interface that the device is. -/
theorem C129_message (c : Conf) (os : Os) (i : Nat) (s : St) (h0 : s.dead = false) (k : Nat) (hk : k < c.ifs.length) :
    (∀ p, s.interf k = some p → p.idx = i → (∀ j q, s.interf j = some q → q.idx = i → j = k) →
      netlink c os i true s = s ∧ (netlink c os i false s).interf k = none ∧
      (∀ j, j ≠ k → (netlink c os i false s).interf j = s.interf j) ∧
      (∀ x, x ∈ (netlink c os i false s).links ↔ x ∈ s.links ∧ x.loc ≠ p.addr)) ∧
    ((∀ j q, s.interf j = some q → q.idx ≠ i) → netlink c os i false s = s ∧
      ∀ f d, c.ifs[k]? = some f → os k = some d → d.idx = i → (∀ j e, os j = some e → e.idx = i → j = k) →
        Usable c f d → d.addr ≠ none → d.recvOk = true → d.sendOk = true → (netlink c os i true s).interf k ≠ none) := by
  constructor
  · intro p hp hi hu
    have hw : withIndex c s i = some k := by
      cases hw : withIndex c s i with
      | none => exact absurd hw (withIndex_none c s i k p hk hp hi)
      | some j =>
        have := List.find?_some hw
        cases hj : s.interf j with
        | none => simp only [hj] at this; cases this
        | some q =>
          simp only [hj] at this
          rw [hu j q hj (of_decide_eq_true this)]
    have hn : ∀ up, netlink c os i up s = if up = true then s else removeIf c k p s := by
      intro up
      unfold netlink
      rw [if_neg (by rw [h0]; decide), hw]
      simp only []
      rw [hp]
    rw [hn true, hn false, if_pos rfl, if_neg (by decide)]
    refine ⟨rfl, set_self _ _ _, fun j hj => set_ne _ _ _ _ hj, fun x => ?_⟩
    show x ∈ s.links.filter (fun l => decide (l.loc ≠ p.addr)) ↔ _
    rw [List.mem_filter, decide_eq_true_iff]
  · intro hno
    have hw : withIndex c s i = none := by
      cases hw : withIndex c s i with
      | none => rfl
      | some j =>
        have := List.find?_some hw
        cases hj : s.interf j with
        | none => simp only [hj] at this; cases this
        | some q =>
          simp only [hj] at this
          exact absurd (of_decide_eq_true this) (hno j q hj)
    refine ⟨?_, ?_⟩
    · unfold netlink
      rw [if_neg (by rw [h0]; decide), hw]
      simp only []
      rw [if_pos trivial]
    · intro f d hf ho hi hu hus ha hr hs
      have hfind : ofIndex c os i = some k := by
        cases hq : ofIndex c os i with
        | none =>
          unfold ofIndex at hq
          rw [List.find?_eq_none] at hq
          have := hq k (List.mem_range.2 hk)
          simp only [ho, hi] at this
          simp at this
        | some j =>
          have := List.find?_some hq
          cases hj : os j with
          | none => simp only [hj] at this; cases this
          | some e =>
            simp only [hj] at this
            rw [hu j e hj (of_decide_eq_true this)]
      have e : netlink c os i true s = chkUp c f (os k) k s := by
        unfold netlink
        rw [if_neg (by rw [h0]; decide), hw]
        simp only []
        rw [if_neg (by decide), hfind]
        simp only []
        rw [hf]
      obtain ⟨p, hp⟩ := chkUp_usable c f d k s hus ha hr hs
      rw [e, ho, hp]
      intro h; cases h

/-- A HELLO on an interface with an entry leaves a link to the neighbour there, and touches
no other link; a link that times out is gone, and no other one. -/
theorem C129_hello (k r : Nat) (s : St) (p : Ifp) (hp : s.interf k = some p) :
    (∃ x ∈ (hello k r s).links, x.name = k ∧ x.remote = r) ∧
    (∀ x, ¬ (x.name = k ∧ x.remote = r) → (x ∈ (hello k r s).links ↔ x ∈ s.links)) ∧
    (∀ x, x ∈ (expire k r s).links ↔ x ∈ s.links ∧ ¬ (x.name = k ∧ x.remote = r)) := by
  refine ⟨?_, fun x hx => ?_, fun x => ?_⟩
  · unfold hello
    rw [hp]
    simp only []
    split
    · rename_i h
      obtain ⟨x, hx, h⟩ := List.any_eq_true.1 h
      exact ⟨x, hx, of_decide_eq_true h⟩
    · exact ⟨_, List.mem_append_right _ List.mem_cons_self, rfl, rfl⟩
  · unfold hello
    rw [hp]
    simp only []
    split
    · rfl
    · rw [List.mem_append, List.mem_singleton]
      constructor
      · rintro (h | h)
        · exact h
        · rw [h] at hx; exact absurd ⟨rfl, rfl⟩ hx
      · exact Or.inl
  · show x ∈ s.links.filter (fun l => decide (¬(l.name = k ∧ l.remote = r))) ↔ _
    rw [List.mem_filter, decide_eq_true_iff]

/-! ### Never without an interface -/

private theorem anyIf_mono (c : Conf) (s t : St) (h1 : ∀ j, (s.interf j).isSome = true → (t.interf j).isSome = true)
    (h2 : s.orphans ≠ [] → t.orphans ≠ []) (h : anyIf c s = true) : anyIf c t = true := by
  unfold anyIf at h ⊢
  rw [Bool.or_eq_true] at h ⊢
  rcases h with h | h
  · obtain ⟨j, hj, h⟩ := List.any_eq_true.1 h
    exact Or.inl (List.any_eq_true.2 ⟨j, hj, h1 j h⟩)
  · refine Or.inr ?_
    have : s.orphans ≠ [] := by
      intro e; rw [e] at h; cases h
    have := h2 this
    cases ht : t.orphans with
    | nil => exact absurd ht this
    | cons _ _ => rfl

private theorem any_chkUp (c : Conf) (f : Cfg) (od : Option Dev) (k : Nat) (s : St) (h : anyIf c s = true) : anyIf c (chkUp c f od k s) = true := by
  rcases chkUp_cases c f od k s with e | e | ⟨d, a, m, b, _, _, _, _, _, e⟩
  · rw [e]; exact h
  · rw [e]; exact h
  · rw [e]
    refine anyIf_mono c s _ (fun j hj => ?_) (fun ho h' => ?_) h
    · show (set s.interf k _ j).isSome = true
      unfold set
      split
      · rfl
      · exact hj
    · have h' : left s k ++ s.orphans = [] := h'
      exact ho (List.append_eq_nil_iff.1 h').2

private theorem any_remove (c : Conf) (k : Nat) (p : Ifp) (s : St) (ha : c.allowNone = false) (hd : (removeIf c k p s).dead = false) :
    anyIf c (removeIf c k p s) = true := by
  have hd : (s.dead || (!anyIf c { s with interf := set s.interf k none, links := s.links.filter (fun l => decide (l.loc ≠ p.addr)) } && !c.allowNone)) = false := hd
  rw [Bool.or_eq_false_iff, ha] at hd
  have hd := hd.2
  rw [Bool.not_false, Bool.and_true, Bool.not_eq_false'] at hd
  exact hd

private theorem any_poll1 (c : Conf) (os : Os) (s : St) (k : Nat) (ha : c.allowNone = false) (h : s.dead = false → anyIf c s = true)
    (hd : (poll1 c os s k).dead = false) : anyIf c (poll1 c os s k) = true := by
  cases h0 : s.dead with
  | true => rw [poll1_dead c os s k h0, h0] at hd; cases hd
  | false =>
    have h := h h0
    unfold poll1 at hd ⊢
    rw [if_neg (by rw [h0]; decide)] at hd ⊢
    cases hf : c.ifs[k]? with
    | none => exact h
    | some f =>
      rw [hf] at hd
      simp only [] at hd ⊢
      by_cases hc : f.check = false
      · rw [if_pos hc]; exact h
      · rw [if_neg hc] at hd ⊢
        cases hk : s.interf k with
        | none => exact any_chkUp c f _ k s h
        | some p =>
          rw [hk] at hd
          simp only [] at hd ⊢
          rcases chkChanged_cases c f (os k) k p s with ⟨e, _⟩ | ⟨d, a, _, _, _, _, e⟩ | ⟨d, m, b, _, _, _, _, _, e⟩
          · rw [e] at hd ⊢; exact any_remove c k p s ha hd
          · rcases e with ⟨e, hdd⟩ | e
            · rw [e, hdd] at hd; cases hd
            · rw [e] at hd ⊢
              refine any_chkUp c f _ k _ (any_remove c k _ s ha ?_)
              cases hr : (removeIf c k { refresh c d p with addr := a } s).dead with
              | false => rfl
              | true => rw [chkUp_dead c f (os k) k _ hr] at hd; cases hd
          · rw [e]
            refine anyIf_mono c s _ (fun j hj => ?_) (fun ho => ho) h
            show (set s.interf k _ j).isSome = true
            unfold set
            split
            · rfl
            · exact hj

private theorem any_fold (c : Conf) (os : Os) (ha : c.allowNone = false) : ∀ (l : List Nat) (s : St), (s.dead = false → anyIf c s = true) →
    (l.foldl (poll1 c os) s).dead = false → anyIf c (l.foldl (poll1 c os) s) = true
  | [], _, h, hd => h hd
  | j :: l, s, h, hd => by
    rw [List.foldl_cons] at hd ⊢
    exact any_fold c os ha l _ (fun h1 => any_poll1 c os s j ha h h1) hd

private theorem any_step (c : Conf) (s : St) (e : Ev) (ha : c.allowNone = false) (h : s.dead = false → anyIf c s = true)
    (hd : (step c s e).dead = false) : anyIf c (step c s e) = true := by
  cases e with
  | poll os => exact any_fold c os ha _ s h hd
  | hello k r =>
    simp only [step] at hd ⊢
    split at hd
    · rename_i h1; rw [h1] at hd; cases hd
    · rename_i h1
      rw [if_neg h1]
      refine anyIf_mono c s _ (fun j hj => ?_) (fun ho => ?_) (h (by simpa using h1))
      · rw [(hello_interf k r s).1]; exact hj
      · unfold hello
        split
        · exact ho
        · split <;> exact ho
  | expire k r =>
    simp only [step] at hd ⊢
    split at hd
    · rename_i h1; rw [h1] at hd; cases hd
    · rename_i h1
      rw [if_neg h1]
      exact h (by simpa using h1)
  | netlink os i up =>
    simp only [step] at hd ⊢
    cases h0 : s.dead with
    | true => 
      have : netlink c os i up s = s := if_pos h0
      rw [this, h0] at hd; cases hd
    | false =>
      have h := h h0
      unfold netlink at hd ⊢
      rw [if_neg (by rw [h0]; decide)] at hd ⊢
      cases hw : withIndex c s i with
      | some k =>
        rw [hw] at hd
        simp only [] at hd ⊢
        cases hk : s.interf k with
        | none => exact h
        | some p =>
          rw [hk] at hd
          simp only [] at hd ⊢
          cases up with
          | true => exact h
          | false => exact any_remove c k p s ha hd
      | none =>
        simp only []
        split
        · exact h
        · split
          · exact h
          · split
            · exact h
            · exact any_chkUp c _ _ _ s h

/-- A daemon that is not allowed to be without interfaces has one as long as it runs, if it
had one at the start. -/
theorem C129_alone (c : Conf) (os : Os) (l : List Ev) (ha : c.allowNone = false) (h0 : anyIf c (start c os) = true) (hd : (run c os l).dead = false) :
    (∃ k p, (run c os l).interf k = some p) ∨ (run c os l).orphans ≠ [] := by
  have : ∀ (l : List Ev) (s : St), (s.dead = false → anyIf c s = true) → (l.foldl (step c) s).dead = false → anyIf c (l.foldl (step c) s) = true := by
    intro l
    induction l with
    | nil => intro s h hd; exact h hd
    | cons e l ih => intro s h hd; exact ih _ (fun h1 => any_step c s e ha h h1) hd
  have h : anyIf c (run c os l) = true := this l _ (fun _ => h0) hd
  unfold anyIf at h
  rw [Bool.or_eq_true] at h
  rcases h with h | h
  · obtain ⟨j, _, h⟩ := List.any_eq_true.1 h
    obtain ⟨p, hp⟩ := Option.isSome_iff_exists.1 h
    exact Or.inl ⟨j, p, hp⟩
  · refine Or.inr (fun e => ?_)
    rw [e] at h; cases h

/-! ### What goes wrong -/

private def dev (i a : Nat) : Dev := ⟨true, true, true, false, false, i, some a, some 24, some 255, some 1500, true, true⟩
private def one (d : Dev) : Os := fun k => if k = 0 then some d else none
private def conf (allow : Bool) (src : Option Nat) : Conf := ⟨false, allow, [⟨true, src, none⟩]⟩

/-- The address of the interface changes.  The link to neighbour 7 stays, with the old
address and a pointer to the entry that was freed.  However many HELLO messages come from 7
the link is used as it is, and 7 is never announced on the interface. -/
theorem C129_links_negation (l : List Ev) (hl : ∀ e ∈ l, e = .hello 0 7) (s : St)
    (hs : s = run (conf true none) (one (dev 3 10)) ([.hello 0 7, .poll (one (dev 3 20))] ++ l)) :
    s.links = [⟨0, 0, 10, 7⟩] ∧ (∃ p, s.interf 0 = some p ∧ p.uid = 1 ∧ p.addr = 20) ∧ announced 0 s = [] := by
  have key : ∀ (l : List Ev) (t : St), (∀ e ∈ l, e = .hello 0 7) → t.links = [⟨0, 0, 10, 7⟩] → (∃ p, t.interf 0 = some p ∧ p.uid = 1 ∧ p.addr = 20) →
      (l.foldl (step (conf true none)) t).links = [⟨0, 0, 10, 7⟩] ∧ (∃ p, (l.foldl (step (conf true none)) t).interf 0 = some p ∧ p.uid = 1 ∧ p.addr = 20) := by
    intro l
    induction l with
    | nil => intro t _ h1 h2; exact ⟨h1, h2⟩
    | cons e l ih =>
      intro t hl h1 h2
      rw [List.foldl_cons, hl e List.mem_cons_self]
      have : step (conf true none) t (.hello 0 7) = t := by
        simp only [step]
        split
        · rfl
        · obtain ⟨p, hp, _⟩ := h2
          unfold hello
          rw [hp]
          simp only []
          rw [h1]
          rfl
      rw [this]
      exact ih t (fun x hx => hl x (List.mem_cons_of_mem _ hx)) h1 h2
  have h0 := key l (run (conf true none) (one (dev 3 10)) [.hello 0 7, .poll (one (dev 3 20))]) hl (by decide) ⟨_, rfl, rfl, rfl⟩
  have e : s = l.foldl (step (conf true none)) (run (conf true none) (one (dev 3 10)) [.hello 0 7, .poll (one (dev 3 20))]) := by
    rw [hs]
    unfold run
    rw [List.foldl_append]
  rw [e]
  refine ⟨h0.1, h0.2, ?_⟩
  obtain ⟨p, hp, _, ha⟩ := h0.2
  unfold announced
  rw [hp]
  simp only []
  rw [h0.1, ha]
  rfl

/-- The address of the only interface changes: the daemon ends, though the interface can be
used. -/
theorem C129_exit_negation : (poll (conf false none) (one (dev 3 20)) (start (conf false none) (one (dev 3 10)))).dead = true ∧
    Usable (conf false none) ⟨true, none, none⟩ (dev 3 20) :=
  ⟨by decide, by unfold Usable; decide⟩

/-- One interface goes down and another one comes up between two checks: the daemon ends. -/
theorem C129_turn_negation (c : Conf) (hc : c = ⟨false, false, [⟨true, none, none⟩, ⟨true, none, none⟩]⟩) :
    (poll c (fun k => if k = 1 then some (dev 4 20) else none) (start c (one (dev 3 10)))).dead = true ∧
    Usable c ⟨true, none, none⟩ (dev 4 20) := by
  subst hc
  exact ⟨by decide, by unfold Usable; decide⟩

/-- With a configured source address that is not the first address of the interface, every
check frees the entry of the interface and makes a new one; the links stay and point to the
freed one.  If it is the only interface, the daemon ends at the first check. -/
theorem C129_src_negation (a b : Nat) (hab : a ≠ b) (s : St) (p : Ifp) (hp : s.interf 0 = some p) (ha : p.addr = b) (h0 : s.dead = false) :
    ((∃ q, (poll (conf true (some b)) (one (dev 3 a)) s).interf 0 = some q ∧ q.uid = s.next ∧ q.addr = b) ∧
      ∀ x ∈ s.links, x.loc = b → x ∈ (poll (conf true (some b)) (one (dev 3 a)) s).links) ∧
    (poll (conf false (some b)) (one (dev 3 a)) (start (conf false (some b)) (one (dev 3 a)))).dead = true := by
  have hgen : ∀ (allow : Bool) (s : St) (p : Ifp), s.interf 0 = some p → p.addr = b → s.dead = false →
      poll (conf allow (some b)) (one (dev 3 a)) s =
        (if (removeIf (conf allow (some b)) 0 { refresh (conf allow (some b)) (dev 3 a) p with addr := a } s).dead = true
         then removeIf (conf allow (some b)) 0 { refresh (conf allow (some b)) (dev 3 a) p with addr := a } s
         else chkUp (conf allow (some b)) ⟨true, some b, none⟩ (some (dev 3 a)) 0 (removeIf (conf allow (some b)) 0 { refresh (conf allow (some b)) (dev 3 a) p with addr := a } s)) := by
    intro allow s p hp ha h0
    show poll1 (conf allow (some b)) (one (dev 3 a)) s 0 = _
    unfold poll1
    rw [if_neg (by rw [h0]; decide)]
    rw [show (conf allow (some b)).ifs[0]? = some ⟨true, some b, none⟩ from rfl]
    simp only []
    rw [if_neg (by decide), hp]
    rw [show one (dev 3 a) 0 = some (dev 3 a) from rfl]
    simp only [chkChanged]
    rw [if_neg (fun h => (by cases h)), show (dev 3 a).addr = some a from rfl]
    simp only []
    rw [if_pos (by rw [ha]; exact hab)]
  constructor
  · rw [hgen true s p hp ha h0]
    have hdead : ∀ q, (removeIf (conf true (some b)) 0 q s).dead = false := by
      intro q
      show (s.dead || (_ && !true)) = false
      rw [h0]; simp
    rw [if_neg (by rw [hdead]; decide)]
    refine ⟨⟨_, rfl, rfl, rfl⟩, fun x hx hb => ?_⟩
    rw [chkUp_links]
    exact List.mem_filter.2 ⟨hx, decide_eq_true (by rw [hb]; exact fun h => hab h.symm)⟩
  · have h1 : (start (conf false (some b)) (one (dev 3 a))).interf 0 = some (fresh (conf false (some b)) (dev 3 a) 0 b 24 255) := rfl
    rw [hgen false _ _ h1 rfl rfl]
    have hdead : ∀ q, (removeIf (conf false (some b)) 0 q (start (conf false (some b)) (one (dev 3 a)))).dead = true := fun _ => rfl
    rw [if_pos (hdead _)]
    exact hdead _

/-- The device is made anew under its name and with its address, and the message about it
is lost: the index is taken over, the sockets stay bound to the old device, at this and at
all later checks. -/
theorem C129_index_negation (n : Nat) (s : St) (hs : s = run (conf true none) (one (dev 3 10)) (List.replicate (n + 1) (.poll (one (dev 4 10))))) :
    ∃ p, s.interf 0 = some p ∧ p.idx = 4 ∧ p.sockIdx = 3 := by
  have key : ∀ (n : Nat) (t : St), t.dead = false → (∃ p, t.interf 0 = some p ∧ p.sockIdx = 3 ∧ p.addr = 10) →
      ∃ p, ((List.replicate (n + 1) (Ev.poll (one (dev 4 10)))).foldl (step (conf true none)) t).interf 0 = some p ∧ p.idx = 4 ∧ p.sockIdx = 3 := by
    have one1 : ∀ t : St, t.dead = false → (∃ p, t.interf 0 = some p ∧ p.sockIdx = 3 ∧ p.addr = 10) →
        (poll (conf true none) (one (dev 4 10)) t).dead = false ∧
        ∃ p, (poll (conf true none) (one (dev 4 10)) t).interf 0 = some p ∧ p.idx = 4 ∧ p.sockIdx = 3 ∧ p.addr = 10 := by
      intro t h0 ⟨p, hp, h1, h2⟩
      have e : poll (conf true none) (one (dev 4 10)) t =
          { t with interf := set t.interf 0 (some { refresh (conf true none) (dev 4 10) p with mask := 24, brd := 255 }) } := by
        show poll1 (conf true none) (one (dev 4 10)) t 0 = _
        unfold poll1
        rw [if_neg (by rw [h0]; decide)]
        rw [show (conf true none).ifs[0]? = some ⟨true, none, none⟩ from rfl]
        simp only []
        rw [if_neg (by decide), hp]
        rw [show one (dev 4 10) 0 = some (dev 4 10) from rfl]
        simp only [chkChanged]
        rw [if_neg (by decide), show (dev 4 10).addr = some 10 from rfl]
        simp only []
        rw [if_neg (fun h => h h2.symm)]
        rfl
      rw [e]
      obtain ⟨e1, e2, _, _, _, e6⟩ := refresh_addr (conf true none) (dev 4 10) p
      exact ⟨h0, { refresh (conf true none) (dev 4 10) p with mask := 24, brd := 255 }, set_self t.interf 0 _, e2, e6.trans h1, e1.trans h2⟩
    intro n
    induction n with
    | zero =>
      intro t h0 h1
      obtain ⟨_, p, hp, a, b, _⟩ := one1 t h0 h1
      exact ⟨p, hp, a, b⟩
    | succ n ih =>
      intro t h0 h1
      rw [List.replicate_succ, List.foldl_cons]
      obtain ⟨hd, p, hp, a, b, c⟩ := one1 t h0 h1
      exact ih _ hd ⟨p, hp, b, c⟩
  rw [hs]
  exact key n _ rfl ⟨_, rfl, rfl, rfl⟩

private theorem chkUp_orphans_ne (c : Conf) (f : Cfg) (od : Option Dev) (k : Nat) (s : St) (h : s.orphans ≠ []) : (chkUp c f od k s).orphans ≠ [] := by
  rcases chkUp_cases c f od k s with e | e | ⟨d, a, m, b, _, _, _, _, _, e⟩
  · rw [e]; exact h
  · rw [e]; exact h
  · rw [e]
    show left s k ++ s.orphans ≠ []
    intro h'
    exact h (List.append_eq_nil_iff.1 h').2

/-- If the message about the new device is seen before a check (and the one about the old
device was lost), a second entry is made and the first one stays, with its sockets and
timers, for ever. -/
theorem C129_double_negation (l : List Ev) :
    (run (conf true none) (one (dev 3 10)) (.netlink (one (dev 4 10)) 4 true :: l)).orphans ≠ [] := by
  have key : ∀ (l : List Ev) (t : St), t.orphans ≠ [] → (l.foldl (step (conf true none)) t).orphans ≠ [] := by
    intro l
    induction l with
    | nil => intro t h; exact h
    | cons e l ih =>
      intro t h
      rw [List.foldl_cons]
      apply ih
      cases e with
      | hello k r =>
        simp only [step]
        split
        · exact h
        · unfold hello
          split
          · exact h
          · split <;> exact h
      | expire k r =>
        simp only [step]
        split <;> exact h
      | netlink os i up =>
        simp only [step]
        unfold netlink
        split
        · exact h
        · split
          · split
            · split <;> exact h
            · exact h
          · split
            · exact h
            · split
              · exact h
              · split
                · exact h
                · exact chkUp_orphans_ne _ _ _ _ _ h
      | poll os =>
        have : ∀ (js : List Nat) (t : St), t.orphans ≠ [] → (js.foldl (poll1 (conf true none) os) t).orphans ≠ [] := by
          intro js
          induction js with
          | nil => intro t h; exact h
          | cons j js ih =>
            intro t h
            rw [List.foldl_cons]
            apply ih
            unfold poll1
            split
            · exact h
            · split
              · exact h
              · split
                · exact h
                · split
                  · rename_i f _ _ _ p _
                    rcases chkChanged_cases (conf true none) f (os j) j p t with ⟨e, _⟩ | ⟨d, a, _, _, _, _, e⟩ | ⟨d, m, b, _, _, _, _, _, e⟩
                    · rw [e]; exact h
                    · rcases e with ⟨e, _⟩ | e
                      · rw [e]; exact h
                      · rw [e]; exact chkUp_orphans_ne _ _ _ _ _ h
                    · rw [e]; exact h
                  · exact chkUp_orphans_ne _ _ _ _ _ h
        exact this _ t h
  show (l.foldl (step (conf true none)) (step (conf true none) (start (conf true none) (one (dev 3 10))) (.netlink (one (dev 4 10)) 4 true))).orphans ≠ []
  exact key l _ (by decide)

/-- The main address stays the old one when the address of the interface changes, so that
it is the address of none of the interfaces. -/
theorem C129_main_negation : (run (conf true none) (one (dev 3 10)) [.poll (one (dev 3 20))]).main = some 10 ∧
    ∀ k p, (run (conf true none) (one (dev 3 10)) [.poll (one (dev 3 20))]).interf k = some p → p.addr ≠ 10 := by
  refine ⟨by decide, fun k p hp => ?_⟩
  by_cases hk : k = 0
  · rw [hk] at hp
    have hp : some (fresh (conf true none) (dev 3 20) 1 20 24 255) = some p := hp
    injection hp with hp
    rw [← hp]
    decide
  · have e : (poll (conf true none) (one (dev 3 20)) (start (conf true none) (one (dev 3 10)))).interf k = (start (conf true none) (one (dev 3 10))).interf k :=
      fold_frame _ _ k [0] _ (by simpa using hk)
    have hp : (poll (conf true none) (one (dev 3 20)) (start (conf true none) (one (dev 3 10)))).interf k = some p := hp
    rw [e] at hp
    have : (start (conf true none) (one (dev 3 10))).interf k = none := by
      show set (fun _ => none) 0 _ k = none
      rw [set_ne _ _ _ _ hk]
    rw [this] at hp
    cases hp

/-! ### Examples -/

example : (run (conf false none) (one (dev 3 10)) [.hello 0 7, .hello 0 8, .poll (one (dev 3 10)), .expire 0 8]).links = [⟨0, 0, 10, 7⟩] := by decide

example : SameAll (conf false none) (one (dev 3 10)) [.poll (one (dev 3 10))] := by
  intro pre e post h
  cases pre with
  | cons x pre =>
    injection h with _ h
    cases pre <;> cases h
  | nil =>
    injection h with h _
    rw [← h]
    intro k p d hp hd
    unfold one at hd
    split at hd
    · rename_i hk
      injection hd with hd
      rw [hk] at hp
      have hp : some (fresh (conf false none) (dev 3 10) 0 10 24 255) = some p := hp
      injection hp with hp
      rw [← hp, ← hd]
      exact ⟨rfl, fun a ha => by injection ha with ha; exact ha.symm⟩
    · cases hd

example : (run (conf false none) (one (dev 3 10)) [.poll (fun _ => none)]).dead = true := by decide

/-- A new netmask and a smaller MTU are taken over. -/
example : (poll (conf false none) (one { dev 3 10 with mask := some 16, mtu := some 1400 }) (start (conf false none) (one (dev 3 10)))).interf 0 =
    some ⟨0, 3, 10, 16, 255, 1372, 1372, 10, 3⟩ := by decide

end Verif.Iface
