import Verif.HelloLemmas

/-! Properties C20, C21 (HELLO part) and C69: HELLO messages. -/
namespace Verif.Hello

open Verif BuildMsg

/-! ### C20: round trip -/

private theorem code_back (i j : Nat) (hi : i < 3) (hj : j < 4) : linkCode i j &&& 3 = j ∧ (linkCode i j &&& 12) >>> 2 = i := by
  have h1 : i = 0 ∨ i = 1 ∨ i = 2 := by omega
  have h2 : j = 0 ∨ j = 1 ∨ j = 2 ∨ j = 3 := by omega
  rcases h1 with rfl | rfl | rfl <;> rcases h2 with rfl | rfl | rfl | rfl <;> decide

/-- a neighbour whose fields have the sizes of the C structure -/
def Fit (v6 : Bool) (n : Nb) : Prop := n.addr.length = ipsize v6 ∧ n.status < 3 ∧ n.link < 4 ∧ n.lq < 256 ∧ n.nlq < 256

private theorem mk_self {v6 : Bool} {code : Nat} {n : Nb} (h : Fit v6 n) (hc : code = linkCode n.status n.link) : mk true code n = n := by
  obtain ⟨h1, h2⟩ := code_back n.status n.link h.2.1 h.2.2.1
  unfold mk
  rw [hc, h1, h2]
  simp only [if_true]
  rw [Nat.mod_eq_of_lt h.2.2.2.1, Nat.mod_eq_of_lt h.2.2.2.2]

private theorem seen_content {v6 : Bool} (bs : List Block) (hg : ∀ b ∈ bs, Good v6 b) (hf : ∀ n ∈ content bs, Fit v6 n) :
    seen true bs = content bs := by
  induction bs with
  | nil => rfl
  | cons b bs ih =>
    have hc : content (b :: bs) = b.nbs ++ content bs := by simp [content]
    rw [hc] at hf ⊢
    have ih := ih (fun c h => hg c (List.mem_cons_of_mem _ h)) (fun n h => hf n (List.mem_append.2 (Or.inr h)))
    unfold seen at ih ⊢
    rw [List.flatMap_cons, ih]
    congr 1
    have : b.nbs.map (mk true b.code) = b.nbs.map id := by
      apply List.map_congr_left
      intro n hn
      exact mk_self (hf n (List.mem_append.2 (Or.inl hn))) ((hg b (List.mem_cons_self ..)).2 n hn).2
    rw [this, List.map_id]

private theorem fields (v6 : Bool) (h : Head) (seq : Nat) (bs : List Block) (ho : h.orig.length = ipsize v6)
    (hq : seq < 65536) (hl : off v6 + bsize v6 bs < 65536) :
    (bytes v6 true h seq bs).getD 0 0 = h.ty ∧ (bytes v6 true h seq bs).getD 1 0 = h.vtime ∧
    rd16 ((bytes v6 true h seq bs).getD 2 0) ((bytes v6 true h seq bs).getD 3 0) = off v6 + bsize v6 bs ∧
    ((bytes v6 true h seq bs).drop 4).take (ipsize v6) = h.orig ∧
    (bytes v6 true h seq bs).getD (ipsize v6 + 4) 0 = 1 ∧ (bytes v6 true h seq bs).getD (ipsize v6 + 5) 0 = 0 ∧
    rd16 ((bytes v6 true h seq bs).getD (ipsize v6 + 6) 0) ((bytes v6 true h seq bs).getD (ipsize v6 + 7) 0) = seq ∧
    (bytes v6 true h seq bs).getD (ipsize v6 + 10) 0 = h.htime ∧ (bytes v6 true h seq bs).getD (ipsize v6 + 11) 0 = h.will ∧
    (bytes v6 true h seq bs).drop (off v6) = (bs.map (blockBytes v6 true)).flatten := by
  have hoff := off_eq v6
  have e : bytes v6 true h seq bs =
      h.ty :: h.vtime :: ((off v6 + bsize v6 bs) / 256 % 256) :: ((off v6 + bsize v6 bs) % 256) ::
        (h.orig ++ (1 :: 0 :: (seq / 256 % 256) :: (seq % 256) :: 0 :: 0 :: h.htime :: h.will :: (bs.map (blockBytes v6 true)).flatten)) := by
    simp [bytes, TcPkt.be16, bsize]
  obtain ⟨body, hbody⟩ : ∃ x, (bs.map (blockBytes v6 true)).flatten = x := ⟨_, rfl⟩
  obtain ⟨sz, hszz⟩ : ∃ x, off v6 + bsize v6 bs = x := ⟨_, rfl⟩
  rw [hszz] at hl
  rw [e, hbody, hszz]
  have g : ∀ k, (h.ty :: h.vtime :: (sz / 256 % 256) :: (sz % 256) ::
        (h.orig ++ (1 :: 0 :: (seq / 256 % 256) :: (seq % 256) :: 0 :: 0 :: h.htime :: h.will :: body))).getD (ipsize v6 + (k + 4)) 0 =
        (1 :: 0 :: (seq / 256 % 256) :: (seq % 256) :: 0 :: 0 :: h.htime :: h.will :: body).getD k 0 := by
    intro k
    rw [show ipsize v6 + (k + 4) = (h.orig.length + k) + 4 by omega]
    simp only [List.getD_cons_succ]
    rw [List.getD_eq_getElem?_getD, List.getD_eq_getElem?_getD, List.getElem?_append_right (by omega)]
    rw [show h.orig.length + k - h.orig.length = k by omega]
  refine ⟨rfl, rfl, ?_, ?_, g 0, g 1, ?_, g 6, g 7, ?_⟩
  · exact rd16_be16 _ hl
  · simp only [List.drop_succ_cons, List.drop_zero]
    rw [← ho, List.take_left]
  · rw [show ipsize v6 + 6 = ipsize v6 + (2 + 4) by omega, show ipsize v6 + 7 = ipsize v6 + (3 + 4) by omega, g, g]
    exact rd16_be16 _ hq
  · rw [show off v6 = (h.orig.length + 8) + 4 by omega]
    simp only [List.drop_succ_cons]
    rw [← List.drop_drop, List.drop_left]
    rfl

private theorem fits_of {v6 : Bool} {bs : List Block} (hg : ∀ b ∈ bs, Good v6 b) (hl : bsize v6 bs < 65536) :
    ∀ b ∈ bs, Fits v6 true b := by
  intro b hb
  have ha : ∀ n ∈ b.nbs, n.addr.length = ipsize v6 := fun n hn => ((hg b hb).2 n hn).1
  refine ⟨ha, ?_⟩
  obtain ⟨l, r, rfl⟩ := List.append_of_mem hb
  have e : l ++ b :: r = l ++ ([b] ++ r) := rfl
  rw [e, bsize_append, bsize_append, bsize_one v6 b ha] at hl
  rw [nbSize_lq]; omega

private theorem parse_bytes (v6 : Bool) (h : Head) (seq : Nat) (bs : List Block) (ho : h.orig.length = ipsize v6) (hty : h.ty = 201)
    (hq : seq < 65536) (hl : off v6 + bsize v6 bs < 65536) (hg : ∀ b ∈ bs, Good v6 b) (hf : ∀ n ∈ content bs, Fit v6 n)
    (hd : ((content bs).map Nb.addr).Nodup) :
    ∃ ns, parse v6 (bytes v6 true h seq bs) =
      .ok { vtime := h.vtime, orig := h.orig, ttl := 1, hops := 0, seq := seq, htime := h.htime, will := h.will, nbs := ns } ∧
      ns.Perm (content bs) := by
  obtain ⟨f0, f1, f2, f3, f4, f5, f6, f7, f8, f9⟩ := fields v6 h seq bs ho hq hl
  have hlen := bytes_length v6 h seq bs ho
  have hfit := fits_of hg (by omega)
  refine ⟨cull ((seen true (linkOrder.flatMap (fun ty => bs.filter (fun b => b.code &&& 3 == ty)))).reverse ++ []), ?_, ?_⟩
  · unfold parse
    rw [f0, f1, f3, f4, f5, f6, f7, f8, f9, hty, if_neg (by decide), if_neg (by rw [hlen]; omega)]
    show (match passes v6 true _ linkOrder [] with | .reject x => _ | .overread => _ | .ok ns => _) = _
    rw [passes_ok v6 true bs hfit linkOrder []]
  · have hp := order_perm bs
    have hseen : (seen true (linkOrder.flatMap (fun ty => bs.filter (fun b => b.code &&& 3 == ty)))).Perm (content bs) := by
      rw [← seen_content bs hg hf]
      unfold seen
      exact List.Perm.flatMap_right _ hp
    have hr : ((seen true (linkOrder.flatMap (fun ty => bs.filter (fun b => b.code &&& 3 == ty)))).reverse ++ []).Perm (content bs) := by
      rw [List.append_nil]
      exact (List.reverse_perm _).trans hseen
    refine (cull_perm _ ?_).trans hr
    exact (hr.map Nb.addr).nodup_iff.2 hd

private theorem parse_sealed (v6 : Bool) (h : Head) (ho : h.orig.length = ipsize v6) (hty : h.ty = 201) (chs : List (List Block)) :
    ∀ seq, seq < 65536 →
    (∀ c ∈ chs, (∀ b ∈ c, Good v6 b) ∧ off v6 + bsize v6 c ≤ 1228) → (∀ n ∈ content chs.flatten, Fit v6 n) →
    ((content chs.flatten).map Nb.addr).Nodup →
    ∃ ps : List Msg, (sealedH v6 h seq chs).map (parse v6) = ps.map .ok ∧
      ((ps.map Msg.nbs).flatten).Perm (content chs.flatten) ∧
      (∀ p ∈ ps, p.vtime = h.vtime ∧ p.orig = h.orig ∧ p.ttl = 1 ∧ p.hops = 0 ∧ p.htime = h.htime ∧ p.will = h.will) ∧
      (∀ i p, ps[i]? = some p → p.seq = (seq + i) % 65536) := by
  induction chs with
  | nil =>
    intro seq _ _ _ _
    refine ⟨[], rfl, List.Perm.refl _, (fun _ hp => (by cases hp)), ?_⟩
    intro i p hp; simp at hp
  | cons c cs ih =>
    intro seq hs hc hf hd
    rw [List.flatten_cons, content_append] at hf hd ⊢
    rw [List.map_append] at hd
    have hd' := List.nodup_append.1 hd
    obtain ⟨ps, h1, h2, h3, h4⟩ := ih ((seq + 1) % 65536) (Nat.mod_lt _ (by omega))
      (fun c hc' => hc c (List.mem_cons_of_mem _ hc')) (fun n hn => hf n (List.mem_append.2 (Or.inr hn))) hd'.2.1
    have hcc := hc c (List.mem_cons_self ..)
    obtain ⟨ns, e1, e2⟩ := parse_bytes v6 h seq c ho hty hs (by omega) hcc.1
      (fun n hn => hf n (List.mem_append.2 (Or.inl hn))) hd'.1
    obtain ⟨q, hq⟩ : ∃ q : Msg, q = ⟨h.vtime, h.orig, 1, 0, seq, h.htime, h.will, ns⟩ := ⟨_, rfl⟩
    rw [← hq] at e1
    refine ⟨q :: ps, ?_, ?_, ?_, ?_⟩
    · simp only [sealedH, List.map_cons, h1, e1]
    · rw [List.map_cons, List.flatten_cons]
      rw [hq]
      exact List.Perm.append e2 h2
    · intro p hp
      rcases List.mem_cons.1 hp with hp | hp
      · rw [hp, hq]; exact ⟨rfl, rfl, rfl, rfl, rfl, rfl⟩
      · exact h3 p hp
    · intro i p hi
      cases i with
      | zero =>
        simp at hi
        rw [← hi, hq]
        show seq = _
        omega
      | succ i =>
        simp at hi
        have := h4 i p hi
        rw [this]; omega

private theorem sealed_sizes (v6 : Bool) (h : Head) (ho : h.orig.length = ipsize v6) (B : Nat) (hB : B ≤ 1228) (chs : List (List Block)) :
    ∀ seq, (∀ c ∈ chs, off v6 + bsize v6 c ≤ B) → ∀ m ∈ sealedH v6 h seq chs,
      m.length ≤ B ∧ rd16 (m.getD 2 0) (m.getD 3 0) = m.length := by
  induction chs with
  | nil => intro seq _ m hm; cases hm
  | cons c cs ih =>
    intro seq hc m hm
    rcases List.mem_cons.1 hm with rfl | hm
    · have := hc c (List.mem_cons_self ..)
      rw [bytes_length v6 h seq c ho]
      refine ⟨this, ?_⟩
      have e : bytes v6 true h seq c =
          h.ty :: h.vtime :: ((off v6 + bsize v6 c) / 256 % 256) :: ((off v6 + bsize v6 c) % 256) ::
          (h.orig ++ (1 :: 0 :: (seq / 256 % 256) :: (seq % 256) :: 0 :: 0 :: h.htime :: h.will :: (c.map (blockBytes v6 true)).flatten)) := by
        simp [bytes, TcPkt.be16, bsize]
      rw [e]
      exact rd16_be16 _ (by omega)
    · exact ih _ (fun c hc' => hc c (List.mem_cons_of_mem _ hc')) m hm

/-- **C20 (partial).**  Full claim: for every list of neighbours and every buffer, parsing the HELLO messages generated yields every
neighbour exactly once, with its link type, neighbour type and link quality, and every message fits the buffer.  Proved, for both
address families, provided an empty output buffer has room for a message with one neighbour
(otherwise the program is aborted, `C20_small_buffer_aborts`).  A neighbour with link type `HIDE_LINK` (4) is not
announced; the other link types are below 4. -/
theorem C20_roundtrip_partial (v6 : Bool) (h : Head) (ns : List Nb) (o : Out) (seq : Nat) (ho : h.orig.length = ipsize v6)
    (hty : h.ty = 201) (hs : seq < 65536) (hp : o.pend ≤ o.max) (hroom : off v6 + 4 + (ipsize v6 + 4) ≤ o.max)
    (hn : ∀ n ∈ ns, n.addr.length = ipsize v6 ∧ n.status < 3 ∧ n.lq < 256 ∧ n.nlq < 256)
    (hd : (ns.map Nb.addr).Nodup) :
    ∃ o' ms, ∃ ps : List Msg, serialize v6 h ns o seq = some (o', (seq + ps.length) % 65536) ∧ o'.msgs = o.msgs ++ ms ∧
      o'.pend ≤ o.max ∧ ms.map (parse v6) = ps.map .ok ∧ ms ≠ [] ∧
      ((ps.map Msg.nbs).flatten).Perm (ns.filter (fun n => n.link < 4)) ∧
      (∀ p ∈ ps, p.vtime = h.vtime ∧ p.orig = h.orig ∧ p.ttl = 1 ∧ p.hops = 0 ∧ p.htime = h.htime ∧ p.will = h.will) ∧
      (∀ i p, ps[i]? = some p → p.seq = (seq + i) % 65536) ∧
      (∀ m ∈ ms, m.length ≤ 1228 ∧ m.length ≤ o.max ∧ rd16 (m.getD 2 0) (m.getD 3 0) = m.length) := by
  obtain ⟨o', chs, last, s1, s2, s3, s4, s5, -, s7⟩ := serialize_ok (h := h) ho (fun n hn' => (hn n hn').1) hs hp hroom
  have hrl : room o ≤ 1228 ∧ room o ≤ o.max := by unfold room; split <;> omega
  have hkp := kinds_perm ns (fun n hn' => (hn n hn').2.1)
  rw [← s5] at hkp
  have hfit : ∀ n ∈ content (chs ++ [last]).flatten, Fit v6 n := by
    intro n hn'
    have hm := List.mem_filter.1 (hkp.mem_iff.1 hn')
    have := hn n hm.1
    have hl : n.link < 4 := by simpa using hm.2
    exact ⟨this.1, this.2.1, hl, this.2.2.1, this.2.2.2⟩
  have hnd : ((content (chs ++ [last]).flatten).map Nb.addr).Nodup := by
    refine (hkp.map Nb.addr).nodup_iff.2 ?_
    exact List.Nodup.sublist (List.Sublist.map _ List.filter_sublist) hd
  obtain ⟨ps, p1, p2, p3, p4⟩ := parse_sealed v6 h ho hty (chs ++ [last]) seq hs
    (fun c hc => ⟨(s7 c hc).1, by have := (s7 c hc).2; omega⟩) hfit hnd
  have hlen : ∀ (cs : List (List Block)) (q : Nat), (sealedH v6 h q cs).length = cs.length := by
    intro cs
    induction cs with
    | nil => intro q; rfl
    | cons c cs ih => intro q; rw [sealedH, List.length_cons, ih, List.length_cons]
  have hps : ps.length = (chs ++ [last]).length := by
    have := congrArg List.length p1
    rw [List.length_map, List.length_map, hlen] at this
    omega
  refine ⟨o', sealedH v6 h seq (chs ++ [last]), ps, ?_, s4, by rw [← s2]; exact s3, p1, ?_, p2.trans hkp, p3, p4, ?_⟩
  · rw [hps]; exact s1
  · intro hc
    have := congrArg List.length hc
    rw [hlen] at this
    simp at this
  · intro m hm
    have := sealed_sizes v6 h ho (room o) hrl.1 (chs ++ [last]) seq (fun c hc => (s7 c hc).2) m hm
    exact ⟨by omega, by omega, this.2⟩

/-- three neighbours of two kinds, and a buffer that takes two of them at a time -/
def exNbs : List Nb := [⟨[10, 0, 0, 1], 2, 2, 255, 200⟩, ⟨[10, 0, 0, 2], 0, 1, 100, 0⟩, ⟨[10, 0, 0, 3], 2, 2, 1, 2⟩]
def exHead : Head := ⟨201, 0x86, [10, 9, 9, 9], 5, 3⟩

example : serialize false exHead exNbs ⟨44, 20, []⟩ 65535 =
    some (⟨44, 28, [[201, 0x86, 0, 40, 10, 9, 9, 9, 1, 0, 255, 255, 0, 0, 5, 3, 4, 0, 0, 12, 10, 0, 0, 2, 100, 0, 0, 0, 10, 0, 0, 12, 10, 0, 0, 1, 255, 200, 0, 0],
      [201, 0x86, 0, 28, 10, 9, 9, 9, 1, 0, 0, 0, 0, 0, 5, 3, 10, 0, 0, 12, 10, 0, 0, 3, 1, 2, 0, 0]]⟩, 1) := by decide

/-- **C20 is false for small buffers**: when even an empty buffer has no room for the first neighbour, the assertion fails
and the program is aborted, for every list with a neighbour that is to be announced. -/
theorem C20_small_buffer_aborts (v6 : Bool) (h : Head) (ns : List Nb) (o : Out) (seq : Nat) (hst : ∀ n ∈ ns, n.status < 3)
    (hsome : ∃ n ∈ ns, n.link < 4) (hsmall : o.max < off v6 + 4 + (ipsize v6 + 4)) :
    serialize v6 h ns o seq = none := by
  have key : ∀ (ks : List (Nat × Nat)) (g : Gen), g.blocks = [] → g.head = false → g.left < off v6 + 4 + (ipsize v6 + 4) →
      (∃ k ∈ ks, group ns k ≠ []) → addKinds v6 h ns g ks = none := by
    intro ks
    induction ks with
    | nil => rintro g _ _ _ ⟨k, hk, -⟩; cases hk
    | cons k ks ih =>
      intro g hb hh hl hk
      rw [addKinds]
      show (match addGroup v6 h (linkCode k.1 k.2) true g (group ns k) with | none => none | some g' => addKinds v6 h ns g' ks) = _
      cases hg : group ns k with
      | nil =>
        have hk' : ∃ k ∈ ks, group ns k ≠ [] := by
          obtain ⟨j, hj, hne⟩ := hk
          rcases List.mem_cons.1 hj with rfl | hj
          · exact absurd hg hne
          · exact ⟨j, hj, hne⟩
        rw [addGroup]
        exact ih g hb hh hl hk'
      | cons n rest =>
        have : addNb v6 h (linkCode k.1 k.2) true g n = none := by
          unfold addNb
          have hs : size v6 g = 0 := by simp [size, hb]
          rw [hs, nbSize_lq, if_pos (by simp only [if_true]; omega), if_pos hh]
        rw [addGroup, this]
  have hk : ∃ k ∈ kinds, group ns k ≠ [] := by
    obtain ⟨n, hn, hl⟩ := hsome
    have hp := kinds_perm ns hst
    have : n ∈ kinds.flatMap (group ns) := hp.mem_iff.2 (List.mem_filter.2 ⟨hn, by simpa using hl⟩)
    obtain ⟨k, hk, hm⟩ := List.mem_flatMap.1 this
    exact ⟨k, hk, by intro hc; rw [hc] at hm; cases hm⟩
  have hl : ∀ o' : Out, o'.max = o.max → left o' < off v6 + 4 + (ipsize v6 + 4) := by
    intro o' ho'
    have := left_le_room o'
    unfold room at this
    split at this <;> omega
  unfold serialize
  simp only []
  have hm : (if left o < off v6 + expected v6 o.pend ns then output o else o).max = o.max := by split <;> rfl
  rw [key kinds _ rfl rfl (hl _ hm) hk]

example : serialize false exHead exNbs ⟨27, 0, []⟩ 9 = none := by decide

/-! #### Which neighbours are announced -/

/-- What a node is to announce on an interface about the neighbour interface with address `a`: the first link on this
interface if there is one; otherwise the first link at all, as one of unspecified type. -/
def Announces (ls : List Link) (a : List Nat) (n : Nb) : Prop :=
  n.addr = a ∧ ∃ before l after, ls = before ++ l :: after ∧ l.addr = a ∧ n.lq = l.lq ∧ n.nlq = l.nlq ∧
    (n.status = 2 ↔ l.isMpr = true) ∧ (n.status = 1 ↔ l.isMpr = false ∧ l.sym = true) ∧
    (n.status = 0 ↔ l.isMpr = false ∧ l.sym = false) ∧
    ((l.here = true ∧ n.link = l.status ∧ ∀ x ∈ before, x.addr = a → x.here = false) ∨
     (l.here = false ∧ n.link = 0 ∧ (∀ x ∈ before, x.addr ≠ a) ∧ ∀ x ∈ after, x.addr = a → x.here = false))

/-- state after the links `done`: every entry is right for them, and every address has one -/
private structure Made (done : List Link) (ns : List Nb) : Prop where
  nodup : (ns.map Nb.addr).Nodup
  sound : ∀ n ∈ ns, Announces done n.addr n
  complete : ∀ l ∈ done, ∃ n ∈ ns, n.addr = l.addr

private theorem status_spec (l : Link) : ((entryOf l).status = 2 ↔ l.isMpr = true) ∧ ((entryOf l).status = 1 ↔ l.isMpr = false ∧ l.sym = true) ∧
    ((entryOf l).status = 0 ↔ l.isMpr = false ∧ l.sym = false) := by
  show (nbType l = 2 ↔ _) ∧ (nbType l = 1 ↔ _) ∧ (nbType l = 0 ↔ _)
  unfold nbType
  cases l.isMpr <;> cases l.sym <;> decide

private theorem announces_new (done : List Link) (l : Link) (hno : ∀ x ∈ done, x.addr ≠ l.addr) : Announces (done ++ [l]) l.addr (entryOf l) := by
  obtain ⟨s1, s2, s3⟩ := status_spec l
  refine ⟨rfl, done, l, [], rfl, rfl, rfl, rfl, s1, s2, s3, ?_⟩
  cases hh : l.here with
  | true =>
    refine Or.inl ⟨rfl, ?_, fun x hx he => absurd he (hno x hx)⟩
    show linkType l = _
    unfold linkType; rw [hh]; rfl
  | false =>
    refine Or.inr ⟨rfl, ?_, hno, fun x hx => by cases hx⟩
    show linkType l = _
    unfold linkType; rw [hh]; rfl

private theorem announces_keep {done : List Link} {a : List Nat} {n : Nb} (l : Link) (h : Announces done a n)
    (hl : l.addr = a → l.here = false ∨ n.link ≠ 0) : Announces (done ++ [l]) a n := by
  obtain ⟨h1, before, x, after, h2, h3, h4, h5, h6, h7, h8, h9⟩ := h
  refine ⟨h1, before, x, after ++ [l], by rw [h2]; simp, h3, h4, h5, h6, h7, h8, ?_⟩
  rcases h9 with ⟨g1, g2, g3⟩ | ⟨g1, g2, g3, g4⟩
  · exact Or.inl ⟨g1, g2, g3⟩
  · refine Or.inr ⟨g1, g2, g3, ?_⟩
    intro y hy he
    rcases List.mem_append.1 hy with hy | hy
    · exact g4 y hy he
    · simp at hy
      rw [hy] at he ⊢
      rcases hl he with h | h
      · exact h
      · exact absurd g2 h

private theorem announces_replace {done : List Link} {n : Nb} (l : Link) (hst : ∀ x ∈ done, x.status ≠ 0) (h : Announces done l.addr n)
    (h0 : n.link = 0) (hl : linkType l ≠ 0) : Announces (done ++ [l]) l.addr (entryOf l) := by
  obtain ⟨s1, s2, s3⟩ := status_spec l
  have hh : l.here = true := by
    cases hc : l.here with
    | true => rfl
    | false => exfalso; apply hl; unfold linkType; rw [hc]; rfl
  refine ⟨rfl, done, l, [], rfl, rfl, rfl, rfl, s1, s2, s3, Or.inl ⟨hh, ?_, ?_⟩⟩
  · show linkType l = _
    unfold linkType; rw [hh]; rfl
  · intro x hx he
    obtain ⟨h1, before, y, after, h2, h3, h4, h5, h6, h7, h8, h9⟩ := h
    rcases h9 with ⟨g1, g2, g3⟩ | ⟨g1, g2, g3, g4⟩
    · exfalso
      exact hst y (by rw [h2]; simp) (by rw [← g2]; exact h0)
    · rw [h2] at hx
      rcases List.mem_append.1 hx with hx | hx
      · exact absurd he (g3 x hx)
      · rcases List.mem_cons.1 hx with rfl | hx
        · exact g1
        · exact g4 x hx he

private theorem step_none (l : Link) (ns : List Nb) : createStep l ns = none ↔ ∀ n ∈ ns, n.addr ≠ l.addr := by
  induction ns with
  | nil => simp [createStep]
  | cons n ns ih =>
    unfold createStep
    by_cases h : n.addr = l.addr
    · rw [if_pos h]; simp [h]
    · rw [if_neg h]
      simp [ih, h]

private theorem step_some (l : Link) (ns ns' : List Nb) (h : createStep l ns = some ns') :
    ∃ a n b, ns = a ++ n :: b ∧ n.addr = l.addr ∧ (∀ x ∈ a, x.addr ≠ l.addr) ∧
      ns' = a ++ (if n.link = 0 ∧ linkType l ≠ 0 then entryOf l else n) :: b := by
  induction ns generalizing ns' with
  | nil => simp [createStep] at h
  | cons n ns ih =>
    unfold createStep at h
    by_cases hc : n.addr = l.addr
    · rw [if_pos hc] at h
      refine ⟨[], n, ns, rfl, hc, (fun _ hx => (by cases hx)), ?_⟩
      have h := (Option.some.inj h).symm
      rw [h]
      split <;> rfl
    · rw [if_neg hc] at h
      cases hr : createStep l ns with
      | none => rw [hr] at h; cases h
      | some r =>
        rw [hr] at h
        have h := Option.some.inj h
        obtain ⟨a, m, b, h1, h2, h3, h4⟩ := ih r hr
        refine ⟨n :: a, m, b, by rw [h1]; rfl, h2, ?_, by rw [← h, h4]; rfl⟩
        intro x hx
        rcases List.mem_cons.1 hx with rfl | hx
        · exact hc
        · exact h3 x hx

private theorem create_made (ls : List Link) : ∀ (done : List Link) (ns : List Nb), (∀ x ∈ done ++ ls, x.status ≠ 0) → Made done ns →
    Made (done ++ ls) (create ls ns) := by
  induction ls with
  | nil => intro done ns _ h; rw [List.append_nil]; exact h
  | cons l ls ih =>
    intro done ns hst h
    have e : done ++ l :: ls = (done ++ [l]) ++ ls := by simp
    rw [e] at hst ⊢
    have hst' : ∀ x ∈ done, x.status ≠ 0 := fun x hx => hst x (by simp [hx])
    rw [create]
    cases hs : createStep l ns with
    | none =>
      have hno := (step_none l ns).1 hs
      have hnd : ∀ x ∈ done, x.addr ≠ l.addr := by
        intro x hx he
        obtain ⟨n, hn, hna⟩ := h.complete x hx
        exact hno n hn (by rw [hna, he])
      refine ih (done ++ [l]) (entryOf l :: ns) hst ⟨?_, ?_, ?_⟩
      · rw [List.map_cons, List.nodup_cons]
        refine ⟨?_, h.nodup⟩
        intro hm
        obtain ⟨n, hn, he⟩ := List.mem_map.1 hm
        exact hno n hn he
      · intro n hn
        rcases List.mem_cons.1 hn with rfl | hn
        · exact announces_new done l hnd
        · exact announces_keep l (h.sound n hn) (fun he => absurd he.symm (hno n hn))
      · intro x hx
        rcases List.mem_append.1 hx with hx | hx
        · obtain ⟨n, hn, he⟩ := h.complete x hx
          exact ⟨n, List.mem_cons_of_mem _ hn, he⟩
        · simp at hx
          exact ⟨entryOf l, List.mem_cons_self .., by rw [hx]; rfl⟩
    | some ns' =>
      obtain ⟨a, n, b, h1, h2, h3, h4⟩ := step_some l ns ns' hs
      have hm : ns'.map Nb.addr = ns.map Nb.addr := by
        rw [h1, h4]
        simp only [List.map_append, List.map_cons]
        congr 2
        split
        · exact h2.symm
        · rfl
      refine ih (done ++ [l]) ns' hst ⟨?_, ?_, ?_⟩
      · rw [hm]; exact h.nodup
      · have hnd := h.nodup
        rw [h1, List.map_append, List.map_cons] at hnd
        have hnd' := List.nodup_append.1 hnd
        have hb : ∀ x ∈ b, x.addr ≠ l.addr := by
          intro x hx he
          exact (List.nodup_cons.1 hnd'.2.1).1 (by rw [h2, ← he]; exact List.mem_map.2 ⟨x, hx, rfl⟩)
        intro m hm'
        rw [h4] at hm'
        have hother : m ∈ a ∨ m ∈ b → Announces (done ++ [l]) m.addr m := by
          intro ho
          refine announces_keep l (h.sound m (by rw [h1]; rcases ho with ho | ho <;> simp [ho])) ?_
          intro he
          rcases ho with ho | ho
          · exact absurd he.symm (h3 m ho)
          · exact absurd he.symm (hb m ho)
        rcases List.mem_append.1 hm' with hm' | hm'
        · exact hother (Or.inl hm')
        · rcases List.mem_cons.1 hm' with hm' | hm'
          · by_cases hc : n.link = 0 ∧ linkType l ≠ 0
            · rw [if_pos hc] at hm'
              rw [hm']
              have hs := h.sound n (by rw [h1]; simp)
              rw [h2] at hs
              exact announces_replace l hst' hs hc.1 hc.2
            · rw [if_neg hc] at hm'
              rw [hm']
              refine announces_keep l (h.sound n (by rw [h1]; simp)) ?_
              intro _
              by_cases h0 : n.link = 0
              · left
                cases hh : l.here with
                | false => rfl
                | true =>
                  exfalso
                  apply hc
                  refine ⟨h0, ?_⟩
                  unfold linkType; rw [hh]
                  exact hst l (by simp)
              · exact Or.inr h0
          · exact hother (Or.inr hm')
      · intro x hx
        have hex : ∃ n ∈ ns, n.addr = x.addr := by
          rcases List.mem_append.1 hx with hx | hx
          · exact h.complete x hx
          · simp at hx
            exact ⟨n, by rw [h1]; simp, by rw [hx]; exact h2⟩
        obtain ⟨m, hm1, hm2⟩ := hex
        have : x.addr ∈ ns'.map Nb.addr := by rw [hm]; exact List.mem_map.2 ⟨m, hm1, hm2⟩
        obtain ⟨y, hy1, hy2⟩ := List.mem_map.1 this
        exact ⟨y, hy1, hy2⟩

/-- C20, the list of neighbours: every neighbour interface with a link is announced exactly once, and what is announced is that
of the first link on the interface the message is for, or else unspecified.  (A link never has the status 0, `lookup_link_status`.) -/
theorem C20_announced (ls : List Link) (hst : ∀ l ∈ ls, l.status ≠ 0) :
    ((create ls []).map Nb.addr).Nodup ∧
    (∀ n ∈ create ls [], Announces ls n.addr n) ∧
    (∀ l ∈ ls, ∃ n ∈ create ls [], n.addr = l.addr) := by
  have h := create_made ls [] [] (by simpa using hst)
    ⟨List.nodup_nil, (fun _ hx => (by cases hx)), (fun _ hx => (by cases hx))⟩
  rw [List.nil_append] at h
  exact ⟨h.nodup, h.sound, h.complete⟩

/-- two links to 10.0.0.1, the second on this interface, and one to 10.0.0.2 elsewhere -/
example : create [⟨[10, 0, 0, 1], false, 2, false, true, 9, 9⟩, ⟨[10, 0, 0, 2], false, 2, true, true, 8, 8⟩, ⟨[10, 0, 0, 1], true, 1, false, false, 7, 7⟩] [] =
    [⟨[10, 0, 0, 2], 0, 2, 8, 8⟩, ⟨[10, 0, 0, 1], 1, 0, 7, 7⟩] := by decide

/-- C20 from the links to the receiver: in the HELLO messages made of the link set, a receiver finds every neighbour interface exactly
once, with what is to be announced about it. -/
theorem C20_links_partial (v6 : Bool) (h : Head) (ls : List Link) (o : Out) (seq : Nat) (ho : h.orig.length = ipsize v6)
    (hty : h.ty = 201) (hs : seq < 65536) (hp : o.pend ≤ o.max) (hroom : off v6 + 4 + (ipsize v6 + 4) ≤ o.max)
    (hn : ∀ l ∈ ls, l.addr.length = ipsize v6 ∧ 1 ≤ l.status ∧ l.status ≤ 3 ∧ l.lq < 256 ∧ l.nlq < 256) :
    ∃ o' seq' ms, ∃ ps : List Msg, serialize v6 h (create ls []) o seq = some (o', seq') ∧ o'.msgs = o.msgs ++ ms ∧
      ms.map (parse v6) = ps.map .ok ∧
      (((ps.map Msg.nbs).flatten).map Nb.addr).Nodup ∧
      (∀ n ∈ (ps.map Msg.nbs).flatten, Announces ls n.addr n) ∧
      (∀ l ∈ ls, ∃ n ∈ (ps.map Msg.nbs).flatten, n.addr = l.addr) := by
  obtain ⟨c1, c2, c3⟩ := C20_announced ls (fun l hl => by have := hn l hl; omega)
  have hnb : ∀ n ∈ create ls [], n.addr.length = ipsize v6 ∧ n.status < 3 ∧ n.lq < 256 ∧ n.nlq < 256 ∧ n.link < 4 := by
    intro n hn'
    obtain ⟨-, before, l, after, h2, h3, h4, h5, h6, h7, h8, h9⟩ := c2 n hn'
    have hl := hn l (by rw [h2]; simp)
    refine ⟨by rw [← h3]; exact hl.1, ?_, by omega, by omega, ?_⟩
    · cases hm : l.isMpr with
      | true => rw [h6.2 hm]; decide
      | false =>
        cases hy : l.sym with
        | true => rw [h7.2 ⟨hm, hy⟩]; decide
        | false => rw [h8.2 ⟨hm, hy⟩]; decide
    · rcases h9 with ⟨-, g2, -⟩ | ⟨-, g2, -, -⟩ <;> omega
  obtain ⟨o', ms, ps, r1, r2, -, r3, -, r4, -, -, -⟩ := C20_roundtrip_partial v6 h (create ls []) o seq ho hty hs hp hroom
    (fun n hn' => ⟨(hnb n hn').1, (hnb n hn').2.1, (hnb n hn').2.2.1, (hnb n hn').2.2.2.1⟩) c1
  have hfil : (create ls []).filter (fun n => decide (n.link < 4)) = create ls [] := by
    apply List.filter_eq_self.2
    intro n hn'
    simpa using (hnb n hn').2.2.2.2
  rw [hfil] at r4
  refine ⟨o', _, ms, ps, r1, r2, r3, (r4.map Nb.addr).nodup_iff.2 c1, ?_, ?_⟩
  · intro n hn'
    exact c2 n (r4.mem_iff.1 hn')
  · intro l hl
    obtain ⟨n, h1, h2⟩ := c3 l hl
    exact ⟨n, r4.mem_iff.2 h1, h2⟩

/-! ### C21 (HELLO part) and C69 -/

private theorem mem_fold (others : List Nb) : ∀ (us : List Nb) (x : Nb),
    x ∈ others.foldl (fun u n => u.filter (fun x => x.addr != n.addr)) us ↔ x ∈ us ∧ ∀ o ∈ others, x.addr ≠ o.addr := by
  induction others with
  | nil => intro us x; simp
  | cons o os ih =>
    intro us x
    rw [List.foldl_cons, ih]
    simp
    constructor
    · rintro ⟨⟨a, b⟩, c⟩; exact ⟨a, b, c⟩
    · rintro ⟨a, b, c⟩; exact ⟨⟨a, b⟩, c⟩

private theorem mem_cull_iff (ns : List Nb) (x : Nb) :
    x ∈ cull ns ↔ x ∈ ns ∧ (x.link ≠ 0 ∨ ∀ o ∈ ns, o.link ≠ 0 → x.addr ≠ o.addr) := by
  unfold cull
  simp only []
  rw [List.mem_append, mem_fold, List.mem_filter, List.mem_filter]
  simp only [bne_iff_ne, ne_eq, beq_iff_eq, List.mem_filter]
  constructor
  · rintro (⟨a, b⟩ | ⟨⟨a, b⟩, c⟩)
    · exact ⟨a, Or.inl b⟩
    · exact ⟨a, Or.inr (fun o h1 h2 => c o ⟨h1, h2⟩)⟩
  · rintro ⟨a, b⟩
    by_cases h : x.link = 0
    · rcases b with b | b
      · exact absurd h b
      · exact Or.inr ⟨⟨a, h⟩, fun o ho => b o ho.1 ho.2⟩
    · exact Or.inl ⟨a, h⟩

private theorem mem_cull_other (ns : List Nb) (k : Nb) (h : k ∈ cull ns) (_ : k.link ≠ 0) : k ∈ ns := ((mem_cull_iff ns k).1 h).1

private theorem mem_cull_unspec (ns : List Nb) (n : Nb) (h : n ∈ cull ns) (h0 : n.link = 0) :
    ∀ k ∈ ns, k.link ≠ 0 → n.addr ≠ k.addr := by
  rcases ((mem_cull_iff ns n).1 h).2 with h' | h'
  · exact absurd h0 h'
  · exact h'

private theorem mem_cull (ns : List Nb) (n : Nb) (h : n ∈ ns) (hc : n.link ≠ 0 ∨ ∀ k ∈ ns, k.link ≠ 0 → k.addr ≠ n.addr) : n ∈ cull ns :=
  (mem_cull_iff ns n).2 ⟨h, hc.imp id (fun hc o h1 h2 he => hc o h1 h2 he.symm)⟩

private theorem status_bits (c : Nat) : (c &&& 12) >>> 2 = c / 4 % 4 := by
  have h : (c &&& 12) >>> 2 = (c >>> 2) &&& (12 >>> 2) := Nat.shiftRight_and_distrib
  rw [h, show (12 >>> 2) = 3 from rfl, land3, Nat.shiftRight_eq_div_pow]

/-- A HELLO message whose body is made of whole blocks with whole neighbours. -/
def Tiled (v6 : Bool) (m : List Nat) (bs : List Raw) : Prop :=
  (m.getD 0 0 = 1 ∨ m.getD 0 0 = 201) ∧ off v6 ≤ m.length ∧
  m.drop (off v6) = (bs.map (Raw.bytes v6 (m.getD 0 0 == 201))).flatten ∧ ∀ b ∈ bs, b.Ok v6 (m.getD 0 0 == 201)

/-- **C21, HELLO part (partial).**  Full claim: no HELLO message that the packet parser lets through is read beyond its size.  Proved for
messages with at least the fixed part and whole blocks; the message is then read completely: every neighbour
that is returned is one of the message.  It fails otherwise: `C21_hello_overreads`. -/
theorem C21_hello_partial (v6 : Bool) (m : List Nat) (bs : List Raw) (h : Tiled v6 m bs) :
    ∃ p : Msg, parse v6 m = .ok p ∧ ∀ n ∈ p.nbs, ∃ b ∈ bs, ∃ x ∈ b.items, n.addr = x.take (ipsize v6) := by
  obtain ⟨h1, h2, h3, h4⟩ := h
  unfold parse
  rw [if_neg (by omega), if_neg (by omega), h3, passes_raw v6 _ bs h4 linkOrder []]
  refine ⟨_, rfl, ?_⟩
  intro n hn
  have hsub : ∀ (others us : List Nb), ∀ x ∈ others.foldl (fun u n => u.filter (fun x => x.addr != n.addr)) us, x ∈ us := by
    intro others
    induction others with
    | nil => intro us x hx; exact hx
    | cons o os ih =>
      intro us x hx
      exact (List.mem_filter.1 (ih _ x hx)).1
  have hmem : n ∈ (seenRaw v6 (m.getD 0 0 == 201) (linkOrder.flatMap (fun ty => bs.filter (fun b => b.code &&& 3 == ty)))).reverse ++ [] := by
    rcases List.mem_append.1 hn with hn | hn
    · exact (List.mem_filter.1 hn).1
    · exact (List.mem_filter.1 (hsub _ _ n hn)).1
  rw [List.append_nil, List.mem_reverse] at hmem
  obtain ⟨b, hb, hx⟩ := List.mem_flatMap.1 hmem
  obtain ⟨x, hx1, hx2⟩ := List.mem_map.1 hx
  obtain ⟨ty, -, hb⟩ := List.mem_flatMap.1 hb
  refine ⟨b, (List.mem_filter.1 hb).1, x, hx1, ?_⟩
  rw [← hx2]; rfl

/-- C20, reception: of several announcements of an address, the ones of unspecified link type count only if there is no other; all the
other ones are kept. -/
theorem C20_duplicates (v6 : Bool) (m : List Nat) (bs : List Raw) (h : Tiled v6 m bs) :
    ∃ p : Msg, parse v6 m = .ok p ∧
      (∀ n ∈ p.nbs, n.link = 0 → ∀ k ∈ p.nbs, k.addr = n.addr → k.link = 0) ∧
      (∀ b ∈ bs, ∀ x ∈ b.items, (b.code % 4 ≠ 0 ∨ ∀ c ∈ bs, c.code % 4 ≠ 0 → ∀ y ∈ c.items, y.take (ipsize v6) ≠ x.take (ipsize v6)) →
        ∃ n ∈ p.nbs, n.addr = x.take (ipsize v6) ∧ n.link = b.code % 4 ∧ n.status = b.code / 4 % 4) := by
  obtain ⟨h1, h2, h3, h4⟩ := h
  unfold parse
  rw [if_neg (by omega), if_neg (by omega), h3, passes_raw v6 _ bs h4 linkOrder []]
  refine ⟨_, rfl, ?_, ?_⟩
  · intro n hn h0 k hk he
    cases hkl : k.link with
    | zero => rfl
    | succ j =>
      exfalso
      have hk' : k.link ≠ 0 := by omega
      have hk2 := mem_cull_other _ k hk hk'
      exact mem_cull_unspec _ n hn h0 k hk2 hk' he.symm
  · intro b hb x hx hc
    have hmem : ofItem v6 (m.getD 0 0 == 201) b.code x ∈
        (seenRaw v6 (m.getD 0 0 == 201) (linkOrder.flatMap (fun ty => bs.filter (fun b => b.code &&& 3 == ty)))).reverse ++ [] := by
      rw [List.append_nil, List.mem_reverse]
      refine List.mem_flatMap.2 ⟨b, List.mem_flatMap.2 ⟨b.code &&& 3, ?_, List.mem_filter.2 ⟨hb, by simp⟩⟩, List.mem_map.2 ⟨x, hx, rfl⟩⟩
      rw [land3]
      have : b.code % 4 = 0 ∨ b.code % 4 = 1 ∨ b.code % 4 = 2 ∨ b.code % 4 = 3 := by omega
      rcases this with h | h | h | h <;> rw [h] <;> decide
    refine ⟨ofItem v6 (m.getD 0 0 == 201) b.code x, ?_, rfl, land3 _, ?_⟩
    · refine mem_cull _ _ hmem ?_
      rcases hc with hc | hc
      · left
        show b.code &&& 3 ≠ 0
        rw [land3]; exact hc
      · right
        intro k hk hk0 he
        rw [List.append_nil, List.mem_reverse] at hk
        obtain ⟨c, hc1, hc2⟩ := List.mem_flatMap.1 hk
        obtain ⟨y, hy1, hy2⟩ := List.mem_map.1 hc2
        obtain ⟨ty, -, hc1⟩ := List.mem_flatMap.1 hc1
        have hc1 := (List.mem_filter.1 hc1).1
        rw [← hy2] at hk0 he
        refine hc c hc1 ?_ y hy1 he
        have : c.code &&& 3 ≠ 0 := hk0
        rw [land3] at this; exact this
    · show (b.code &&& 12) >>> 2 = _
      exact status_bits b.code

example : parse false [201, 0x86, 0, 40, 10, 9, 9, 9, 1, 0, 0, 7, 0, 0, 5, 3, 10, 0, 0, 12, 10, 0, 0, 1, 255, 200, 0, 0, 8, 0, 0, 12, 10, 0, 0, 1, 1, 2, 0, 0] =
    .ok ⟨0x86, [10, 9, 9, 9], 1, 0, 7, 5, 3, [⟨[10, 0, 0, 1], 2, 2, 255, 200⟩]⟩ := by decide

example : Tiled false [201, 0x86, 0, 28, 10, 9, 9, 9, 1, 0, 0, 7, 0, 0, 5, 3, 10, 0, 0, 12, 10, 0, 0, 1, 255, 200, 0, 0]
    [⟨10, 0, [[10, 0, 0, 1, 255, 200, 0, 0]]⟩] := by
  refine ⟨Or.inr rfl, by decide, by decide, ?_⟩
  intro b hb
  rw [List.mem_singleton.1 hb]
  refine ⟨?_, by decide⟩
  intro x hx
  rw [List.mem_singleton.1 hx]
  rfl

/-- **C21 is false of HELLO messages**: a message of the size of the header alone is read four bytes beyond its end; a block that
claims to be larger than the message is read to its claimed end; a block whose size is not that of whole neighbours is read to the
end of the last one; so is a block header of which only the first bytes are in the message. -/
theorem C21_hello_overreads :
    parse false [201, 0x86, 0, 12, 10, 9, 9, 9, 1, 0, 0, 7] = .overread ∧
    parse false [201, 0x86, 0, 20, 10, 9, 9, 9, 1, 0, 0, 7, 0, 0, 5, 3, 10, 0, 0xff, 0xff] = .overread ∧
    parse false [201, 0x86, 0, 24, 10, 9, 9, 9, 1, 0, 0, 7, 0, 0, 5, 3, 10, 0, 0, 8, 10, 0, 0, 1] = .overread ∧
    parse false [201, 0x86, 0, 20, 10, 9, 9, 9, 1, 0, 0, 7, 0, 0, 5, 3, 10, 0, 0, 3] = .overread ∧
    parse true ([201, 0x86, 0, 24] ++ List.replicate 16 1 ++ [1, 0, 0, 7]) = .overread := by decide

/-- C21, HELLO part, the general failure: whatever comes before it, a block for neighbours of unspecified link type is read
beyond the message as soon as it announces a neighbour that is not there completely. -/
theorem C21_hello_block_overreads (v6 : Bool) (m : List Nat) (bs : List Raw) (code res s1 s2 : Nat) (tail : List Nat)
    (h1 : m.getD 0 0 = 1 ∨ m.getD 0 0 = 201) (h2 : off v6 ≤ m.length)
    (h3 : m.drop (off v6) = (bs.map (Raw.bytes v6 (m.getD 0 0 == 201))).flatten ++ (code :: res :: s1 :: s2 :: tail))
    (h4 : ∀ b ∈ bs, b.Ok v6 (m.getD 0 0 == 201)) (hc : code % 4 = 0) (hs : 4 < rd16 s1 s2) (ht : tail.length < nbSize v6 (m.getD 0 0 == 201)) :
    parse v6 m = .overread := by
  obtain ⟨lq, hlq⟩ : ∃ b, (m.getD 0 0 == 201) = b := ⟨_, rfl⟩
  rw [hlq] at h3 h4 ht
  have hp := nbSize_pos v6 lq
  have hpass : pass v6 lq 0 ((m.drop (off v6)).length + 1) (m.drop (off v6)) [] = .overread := by
    rw [h3]
    have hge := raw_ge v6 lq bs
    obtain ⟨k, hk⟩ : ∃ k, ((bs.map (Raw.bytes v6 lq)).flatten ++ (code :: res :: s1 :: s2 :: tail)).length + 1 = (k + 1) + bs.length :=
      ⟨((bs.map (Raw.bytes v6 lq)).flatten).length + tail.length + 4 - bs.length, by
        simp only [List.length_append, List.length_cons]; omega⟩
    rw [hk, pass_raw v6 lq 0 _ bs (k + 1) [] h4]
    rw [pass, if_neg (by simp), if_neg (by simp)]
    show (if rd16 s1 s2 = 0 then _ else if code &&& 3 ≠ 0 then _ else match readNbs v6 lq code 65536 (rd16 s1 s2 - 4) tail _ with | none => _ | some (l', acc') => _) = _
    rw [if_neg (by omega), if_neg (by rw [land3]; omega)]
    rw [readNbs, if_neg (by omega), if_pos ht]
  unfold parse
  rw [if_neg (by omega), if_neg (by omega), hlq]
  show (match (match pass v6 lq 0 ((m.drop (off v6)).length + 1) (m.drop (off v6)) [] with | .ok acc' => passes v6 lq (m.drop (off v6)) [3, 1, 2] acc' | .reject x => .reject x | .overread => .overread) with | .reject x => _ | .overread => _ | .ok ns => _) = _
  rw [hpass]

example : parse false [201, 0x86, 0, 24, 10, 9, 9, 9, 1, 0, 0, 7, 0, 0, 5, 3, 4, 0, 0, 12, 10, 0, 0, 1] = .overread :=
  C21_hello_block_overreads false _ [] 4 0 0 12 [10, 0, 0, 1] (Or.inr rfl) (by decide) rfl (fun _ h => (by cases h)) rfl (by decide) (by decide)

/-- **C69 (partial).**  Full claim: every neighbour record allocated while reading a HELLO message is handed to the processing, which frees it, or freed at once;
none is lost.  Proved for messages made of whole blocks (they are never rejected) and for messages of another type.  It
fails otherwise: `C69_leaks`. -/
theorem C69_no_leak_partial (v6 : Bool) (m : List Nat) (bs : List Raw)
    (h : Tiled v6 m bs ∨ (m.getD 0 0 ≠ 1 ∧ m.getD 0 0 ≠ 201)) (x : List Nb) (hx : parse v6 m = .reject x) : x = [] := by
  rcases h with h | h
  · obtain ⟨p, hp, -⟩ := C21_hello_partial v6 m bs h
    rw [hp] at hx; cases hx
  · unfold parse at hx
    rw [if_pos h] at hx
    injection hx with hx
    exact hx.symm

example : parse false [2, 0x86, 0, 12, 10, 9, 9, 9, 1, 0, 0, 7] = .reject [] := by decide

/-- **C69 is false**: all the neighbours of unspecified link type in front of a block of size zero are lost; a sender can repeat
this in every message. -/
theorem C69_leaks (v6 : Bool) (m : List Nat) (bs : List Raw) (code res : Nat) (tail : List Nat)
    (h1 : m.getD 0 0 = 1 ∨ m.getD 0 0 = 201) (h2 : off v6 ≤ m.length)
    (h3 : m.drop (off v6) = (bs.map (Raw.bytes v6 (m.getD 0 0 == 201))).flatten ++ (code :: res :: 0 :: 0 :: tail))
    (h4 : ∀ b ∈ bs, b.Ok v6 (m.getD 0 0 == 201)) :
    ∃ lost : List Nb, parse v6 m = .reject lost ∧
      lost.length = ((bs.filter (fun b => b.code % 4 == 0)).map (fun b => b.items.length)).sum := by
  obtain ⟨lq, hlq⟩ : ∃ b, (m.getD 0 0 == 201) = b := ⟨_, rfl⟩
  rw [hlq] at h3 h4
  have hpass : pass v6 lq 0 ((m.drop (off v6)).length + 1) (m.drop (off v6)) [] =
      .reject ((seenRaw v6 lq (bs.filter (fun b => b.code &&& 3 == 0))).reverse ++ []) := by
    rw [h3]
    have hge := raw_ge v6 lq bs
    obtain ⟨k, hk⟩ : ∃ k, ((bs.map (Raw.bytes v6 lq)).flatten ++ (code :: res :: 0 :: 0 :: tail)).length + 1 = (k + 1) + bs.length :=
      ⟨((bs.map (Raw.bytes v6 lq)).flatten).length + tail.length + 4 - bs.length, by
        simp only [List.length_append, List.length_cons]; omega⟩
    rw [hk, pass_raw v6 lq 0 _ bs (k + 1) [] h4]
    rw [pass, if_neg (by simp), if_neg (by simp), if_pos (show rd16 ((code :: res :: 0 :: 0 :: tail).getD 2 0) ((code :: res :: 0 :: 0 :: tail).getD 3 0) = 0 by simp [rd16])]
  refine ⟨(seenRaw v6 lq (bs.filter (fun b => b.code &&& 3 == 0))).reverse ++ [], ?_, ?_⟩
  · unfold parse
    rw [if_neg (by omega), if_neg (by omega), hlq]
    show (match (match pass v6 lq 0 ((m.drop (off v6)).length + 1) (m.drop (off v6)) [] with | .ok acc' => passes v6 lq (m.drop (off v6)) [3, 1, 2] acc' | .reject x => .reject x | .overread => .overread) with | .reject x => _ | .overread => _ | .ok ns => _) = _
    rw [hpass]
  · rw [List.append_nil, List.length_reverse]
    unfold seenRaw
    rw [List.length_flatMap]
    have : (fun b : Raw => b.code &&& 3 == 0) = (fun b => b.code % 4 == 0) := by
      funext b; rw [land3]
    rw [this]
    congr 1
    apply List.map_congr_left
    intro b _
    rw [List.length_map]

example : parse false [201, 0x86, 0, 32, 10, 9, 9, 9, 1, 0, 0, 7, 0, 0, 5, 3, 4, 0, 0, 12, 10, 0, 0, 1, 255, 255, 0, 0, 10, 0, 0, 0] =
    .reject [⟨[10, 0, 0, 1], 0, 1, 255, 255⟩] := by decide

end Verif.Hello
