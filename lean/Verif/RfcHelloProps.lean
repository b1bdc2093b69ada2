import Verif.RfcHelloLemmas

/-! Properties C90 and C91: HELLO messages without link quality. -/
namespace Verif.RfcHello

open Verif BuildMsg Hello

/-! ### C90: round trip -/

/-- What a receiver makes of an announced neighbour: there is no link quality, and the link type `HIDE_LINK` (4) does not fit in the
two bits of the link code, so that it changes the neighbour type. -/
def heard (n : Nb) : Nb :=
  if n.link = 4 then { addr := n.addr, link := 0, status := if n.status = 2 then 3 else 1, lq := 0, nlq := 0 }
  else { addr := n.addr, link := n.link, status := n.status, lq := 0, nlq := 0 }

private theorem mk_heard {n : Nb} {code : Nat} (h : n.status < 3 ∧ n.link < 5) (hc : code = linkCode n.status n.link) :
    mk false code n = heard n := by
  obtain ⟨a, l, s, q, r⟩ := n
  simp only at h hc
  have h1 : s = 0 ∨ s = 1 ∨ s = 2 := by omega
  have h2 : l = 0 ∨ l = 1 ∨ l = 2 ∨ l = 3 ∨ l = 4 := by omega
  rcases h1 with rfl | rfl | rfl <;> rcases h2 with rfl | rfl | rfl | rfl | rfl <;> rw [hc] <;> rfl

private theorem seen_heard {v6 : Bool} (bs : List Block) (hg : ∀ b ∈ bs, Good v6 b) (hf : ∀ n ∈ content bs, n.status < 3 ∧ n.link < 5) :
    seen false bs = (content bs).map heard := by
  induction bs with
  | nil => rfl
  | cons b bs ih =>
    have hc : content (b :: bs) = b.nbs ++ content bs := by simp [content]
    rw [hc] at hf ⊢
    have ih := ih (fun c h => hg c (List.mem_cons_of_mem _ h)) (fun n h => hf n (List.mem_append.2 (Or.inr h)))
    unfold seen at ih ⊢
    rw [List.flatMap_cons, ih, List.map_append]
    congr 1
    apply List.map_congr_left
    intro n hn
    exact mk_heard (hf n (List.mem_append.2 (Or.inl hn))) ((hg b (List.mem_cons_self ..)).2 n hn).2

private theorem fields (v6 : Bool) (h : Head) (seq : Nat) (bs : List Block) (ho : h.orig.length = ipsize v6)
    (hq : seq < 65536) (hl : off v6 + bsz v6 bs < 65536) :
    (bytes v6 false h seq bs).getD 0 0 = h.ty ∧ (bytes v6 false h seq bs).getD 1 0 = h.vtime ∧
    rd16 ((bytes v6 false h seq bs).getD 2 0) ((bytes v6 false h seq bs).getD 3 0) = off v6 + bsz v6 bs ∧
    ((bytes v6 false h seq bs).drop 4).take (ipsize v6) = h.orig ∧
    (bytes v6 false h seq bs).getD (ipsize v6 + 4) 0 = 1 ∧ (bytes v6 false h seq bs).getD (ipsize v6 + 5) 0 = 0 ∧
    rd16 ((bytes v6 false h seq bs).getD (ipsize v6 + 6) 0) ((bytes v6 false h seq bs).getD (ipsize v6 + 7) 0) = seq ∧
    (bytes v6 false h seq bs).getD (ipsize v6 + 10) 0 = h.htime ∧ (bytes v6 false h seq bs).getD (ipsize v6 + 11) 0 = h.will ∧
    (bytes v6 false h seq bs).drop (off v6) = (bs.map (blockBytes v6 false)).flatten := by
  have hoff := off_eq v6
  have e : bytes v6 false h seq bs =
      h.ty :: h.vtime :: ((off v6 + bsz v6 bs) / 256 % 256) :: ((off v6 + bsz v6 bs) % 256) ::
        (h.orig ++ (1 :: 0 :: (seq / 256 % 256) :: (seq % 256) :: 0 :: 0 :: h.htime :: h.will :: (bs.map (blockBytes v6 false)).flatten)) := by
    simp [bytes, TcPkt.be16, bsz]
  obtain ⟨body, hbody⟩ : ∃ x, (bs.map (blockBytes v6 false)).flatten = x := ⟨_, rfl⟩
  obtain ⟨sz, hszz⟩ : ∃ x, off v6 + bsz v6 bs = x := ⟨_, rfl⟩
  rw [hszz] at hl
  rw [e, hbody, hszz]
  have g : ∀ k, (h.ty :: h.vtime :: (sz / 256 % 256) :: (sz % 256) ::
        (h.orig ++ (1 :: 0 :: (seq / 256 % 256) :: (seq % 256) :: 0 :: 0 :: h.htime :: h.will :: body))).getD (ipsize v6 + (k + 4)) 0 =
        (1 :: 0 :: (seq / 256 % 256) :: (seq % 256) :: 0 :: 0 :: h.htime :: h.will :: body).getD k 0 := by
    intro k
    rw [show ipsize v6 + (k + 4) = (h.orig.length + k) + 4 by omega]
    simp only [List.getD_cons_succ]
    rw [List.getD_eq_getElem?_getD, List.getD_eq_getElem?_getD, List.getElem?_append_right (by omega)]
    rw [show h.orig.length + k - h.orig.length = k by omega]
  refine ⟨rfl, rfl, ?_, ?_, g 0, g 1, ?_, g 6, g 7, ?_⟩
  · exact rd16_be16 _ hl
  · simp only [List.drop_succ_cons, List.drop_zero]
    rw [← ho, List.take_left]
  · rw [show ipsize v6 + 6 = ipsize v6 + (2 + 4) by omega, show ipsize v6 + 7 = ipsize v6 + (3 + 4) by omega, g, g]
    exact rd16_be16 _ hq
  · rw [show off v6 = (h.orig.length + 8) + 4 by omega]
    simp only [List.drop_succ_cons]
    rw [← List.drop_drop, List.drop_left]
    rfl

private theorem fits_of {v6 : Bool} {bs : List Block} (hg : ∀ b ∈ bs, Good v6 b) (hl : bsz v6 bs < 65536) :
    ∀ b ∈ bs, Fits v6 false b := by
  intro b hb
  have ha : ∀ n ∈ b.nbs, n.addr.length = ipsize v6 := fun n hn => ((hg b hb).2 n hn).1
  refine ⟨ha, ?_⟩
  obtain ⟨l, r, rfl⟩ := List.append_of_mem hb
  have e : l ++ b :: r = l ++ ([b] ++ r) := rfl
  rw [e, bsz_append, bsz_append, bsz_one v6 b ha] at hl
  show 4 + b.nbs.length * (ipsize v6 + 0) < 65536
  rw [Nat.add_zero]; omega

private theorem heard_addr (n : Nb) : (heard n).addr = n.addr := by unfold heard; split <;> rfl

private theorem heard_addrs (ns : List Nb) : (ns.map heard).map Nb.addr = ns.map Nb.addr := by
  rw [List.map_map]
  apply List.map_congr_left
  intro n _
  exact heard_addr n

private theorem parse_bytes (v6 : Bool) (h : Head) (seq : Nat) (bs : List Block) (ho : h.orig.length = ipsize v6) (hty : h.ty = 1)
    (hq : seq < 65536) (hl : off v6 + bsz v6 bs < 65536) (hg : ∀ b ∈ bs, Good v6 b) (hf : ∀ n ∈ content bs, n.status < 3 ∧ n.link < 5)
    (hd : ((content bs).map Nb.addr).Nodup) :
    ∃ ns, parse v6 (bytes v6 false h seq bs) =
      .ok { vtime := h.vtime, orig := h.orig, ttl := 1, hops := 0, seq := seq, htime := h.htime, will := h.will, nbs := ns } ∧
      ns.Perm ((content bs).map heard) := by
  obtain ⟨f0, f1, f2, f3, f4, f5, f6, f7, f8, f9⟩ := fields v6 h seq bs ho hq hl
  have hlen := bytesR_length v6 h seq bs ho
  have hfit := fits_of hg (by omega)
  refine ⟨cull ((seen false (linkOrder.flatMap (fun ty => bs.filter (fun b => b.code &&& 3 == ty)))).reverse ++ []), ?_, ?_⟩
  · unfold parse
    rw [f0, f1, f3, f4, f5, f6, f7, f8, f9, hty, if_neg (by decide), if_neg (by rw [hlen]; omega)]
    show (match passes v6 false _ linkOrder [] with | .reject x => _ | .overread => _ | .ok ns => _) = _
    rw [passes_ok v6 false bs hfit linkOrder []]
  · have hp := order_perm bs
    have hseen : (seen false (linkOrder.flatMap (fun ty => bs.filter (fun b => b.code &&& 3 == ty)))).Perm ((content bs).map heard) := by
      rw [← seen_heard bs hg hf]
      unfold seen
      exact List.Perm.flatMap_right _ hp
    have hr : ((seen false (linkOrder.flatMap (fun ty => bs.filter (fun b => b.code &&& 3 == ty)))).reverse ++ []).Perm ((content bs).map heard) := by
      rw [List.append_nil]
      exact (List.reverse_perm _).trans hseen
    refine (cull_perm _ ?_).trans hr
    refine (hr.map Nb.addr).nodup_iff.2 ?_
    rw [heard_addrs]; exact hd

private theorem parse_sealed (v6 : Bool) (h : Head) (ho : h.orig.length = ipsize v6) (hty : h.ty = 1) (chs : List (List Block)) :
    ∀ seq, seq < 65536 →
    (∀ c ∈ chs, (∀ b ∈ c, Good v6 b) ∧ off v6 + bsz v6 c ≤ 1228) → (∀ n ∈ content chs.flatten, n.status < 3 ∧ n.link < 5) →
    ((content chs.flatten).map Nb.addr).Nodup →
    ∃ ps : List Msg, (sealedR v6 h seq chs).map (parse v6) = ps.map .ok ∧
      ((ps.map Msg.nbs).flatten).Perm ((content chs.flatten).map heard) ∧
      (∀ p ∈ ps, p.vtime = h.vtime ∧ p.orig = h.orig ∧ p.ttl = 1 ∧ p.hops = 0 ∧ p.htime = h.htime ∧ p.will = h.will) ∧
      (∀ i p, ps[i]? = some p → p.seq = (seq + i) % 65536) := by
  induction chs with
  | nil =>
    intro seq _ _ _ _
    refine ⟨[], rfl, List.Perm.refl _, (fun _ hp => (by cases hp)), ?_⟩
    intro i p hp; simp at hp
  | cons c cs ih =>
    intro seq hs hc hf hd
    rw [List.flatten_cons, content_append] at hf hd ⊢
    rw [List.map_append] at hd
    have hd' := List.nodup_append.1 hd
    obtain ⟨ps, h1, h2, h3, h4⟩ := ih ((seq + 1) % 65536) (Nat.mod_lt _ (by omega))
      (fun c hc' => hc c (List.mem_cons_of_mem _ hc')) (fun n hn => hf n (List.mem_append.2 (Or.inr hn))) hd'.2.1
    have hcc := hc c (List.mem_cons_self ..)
    obtain ⟨ns, e1, e2⟩ := parse_bytes v6 h seq c ho hty hs (by omega) hcc.1
      (fun n hn => hf n (List.mem_append.2 (Or.inl hn))) hd'.1
    obtain ⟨q, hq⟩ : ∃ q : Msg, q = ⟨h.vtime, h.orig, 1, 0, seq, h.htime, h.will, ns⟩ := ⟨_, rfl⟩
    rw [← hq] at e1
    refine ⟨q :: ps, ?_, ?_, ?_, ?_⟩
    · simp only [sealedR, List.map_cons, h1, e1]
    · rw [List.map_cons, List.flatten_cons, List.map_append]
      rw [hq]
      exact List.Perm.append e2 h2
    · intro p hp
      rcases List.mem_cons.1 hp with hp | hp
      · rw [hp, hq]; exact ⟨rfl, rfl, rfl, rfl, rfl, rfl⟩
      · exact h3 p hp
    · intro i p hi
      cases i with
      | zero =>
        simp at hi
        rw [← hi, hq]
        show seq = _
        omega
      | succ i =>
        simp at hi
        have := h4 i p hi
        rw [this]; omega

private theorem sealed_sizes (v6 : Bool) (h : Head) (ho : h.orig.length = ipsize v6) (B : Nat) (hB : B ≤ 1228) (chs : List (List Block)) :
    ∀ seq, (∀ c ∈ chs, off v6 + bsz v6 c ≤ B) → ∀ m ∈ sealedR v6 h seq chs,
      m.length ≤ B ∧ rd16 (m.getD 2 0) (m.getD 3 0) = m.length := by
  induction chs with
  | nil => intro seq _ m hm; cases hm
  | cons c cs ih =>
    intro seq hc m hm
    rcases List.mem_cons.1 hm with rfl | hm
    · have := hc c (List.mem_cons_self ..)
      rw [bytesR_length v6 h seq c ho]
      refine ⟨this, ?_⟩
      have e : bytes v6 false h seq c =
          h.ty :: h.vtime :: ((off v6 + bsz v6 c) / 256 % 256) :: ((off v6 + bsz v6 c) % 256) ::
          (h.orig ++ (1 :: 0 :: (seq / 256 % 256) :: (seq % 256) :: 0 :: 0 :: h.htime :: h.will :: (c.map (blockBytes v6 false)).flatten)) := by
        simp [bytes, TcPkt.be16, bsz]
      rw [e]
      exact rd16_be16 _ (by omega)
    · exact ih _ (fun c hc' => hc c (List.mem_cons_of_mem _ hc')) m hm

/-- the messages, for both address families, with what becomes of hidden links -/
private theorem round (v6 : Bool) (h : Head) (ns : List Nb) (o : Out) (seq : Nat) (ho : h.orig.length = ipsize v6)
    (hty : h.ty = 1) (hs : seq < 65536) (hp : o.pend ≤ o.max) (hroom : off v6 + 4 + ipsize v6 ≤ o.max)
    (hc : v6 = true → left o < off v6 ∨ off v6 + 20 ≤ left o)
    (hn : ∀ n ∈ ns, n.addr.length = ipsize v6 ∧ n.status < 3 ∧ n.link < 5)
    (hd : (ns.map Nb.addr).Nodup) :
    ∃ o' ms, ∃ ps : List Msg, serialize v6 h ns o seq = some (o', (seq + ps.length) % 65536) ∧ o'.msgs = o.msgs ++ ms ∧
      o'.pend ≤ o.max ∧ ms.map (parse v6) = ps.map .ok ∧ ms ≠ [] ∧
      ((ps.map Msg.nbs).flatten).Perm ((ns.filter (fun n => v6 || decide (n.link < 4))).map heard) ∧
      (∀ p ∈ ps, p.vtime = h.vtime ∧ p.orig = h.orig ∧ p.ttl = 1 ∧ p.hops = 0 ∧ p.htime = h.htime ∧ p.will = h.will) ∧
      (∀ i p, ps[i]? = some p → p.seq = (seq + i) % 65536) ∧
      (∀ m ∈ ms, m.length ≤ 1228 ∧ m.length ≤ o.max ∧ rd16 (m.getD 2 0) (m.getD 3 0) = m.length) := by
  obtain ⟨o', chs, s1, s2, s3, s6, s4, s5, s7⟩ := serialize_ok (h := h) ho (fun n hn' => (hn n hn').1) hs hp hroom hc
  have hrl : room o ≤ 1228 ∧ room o ≤ o.max := by unfold room; split <;> omega
  have hkp := kindsR_perm v6 ns (fun n hn' => (hn n hn').2)
  rw [← s5] at hkp
  have hfit : ∀ n ∈ content chs.flatten, n.status < 3 ∧ n.link < 5 := by
    intro n hn'
    have hm := List.mem_filter.1 (hkp.mem_iff.1 hn')
    exact (hn n hm.1).2
  have hnd : ((content chs.flatten).map Nb.addr).Nodup := by
    refine (hkp.map Nb.addr).nodup_iff.2 ?_
    exact List.Nodup.sublist (List.Sublist.map _ List.filter_sublist) hd
  obtain ⟨ps, p1, p2, p3, p4⟩ := parse_sealed v6 h ho hty chs seq hs
    (fun c hc => ⟨(s7 c hc).1, by have := (s7 c hc).2; omega⟩) hfit hnd
  have hps : ps.length = chs.length := by
    have := congrArg List.length p1
    rw [List.length_map, List.length_map, sealedR_length] at this
    omega
  refine ⟨o', sealedR v6 h seq chs, ps, ?_, s4, by rw [← s2]; exact s3, p1, ?_, p2.trans (hkp.map heard), p3, p4, ?_⟩
  · rw [hps]; exact s1
  · intro hc
    have := congrArg List.length hc
    rw [sealedR_length] at this
    simp at this
    exact s6 this
  · intro m hm
    have := sealed_sizes v6 h ho (room o) hrl.1 chs seq (fun c hc => (s7 c hc).2) m hm
    exact ⟨by omega, by omega, this.2⟩

/-- an announced neighbour without its link quality -/
def plain (n : Nb) : Nb := { n with lq := 0, nlq := 0 }

/-- **C90 (partial).**  Full claim: for every list of neighbours and every output buffer, reading the HELLO messages generated without
link quality yields every neighbour whose link is not hidden exactly once, with its link type and neighbour type, and every
message fits the buffer.  Proved for both address families when an empty buffer has room for a message with one neighbour and, for
IPv6, when no link is hidden and the room left in the buffer is not between 28 and 47 bytes; without the last two
conditions it is false (`C90_hidden6_announced`, `C90_hello6_exits`). -/
theorem C90_roundtrip_partial (v6 : Bool) (h : Head) (ns : List Nb) (o : Out) (seq : Nat) (ho : h.orig.length = ipsize v6)
    (hty : h.ty = 1) (hs : seq < 65536) (hp : o.pend ≤ o.max) (hroom : off v6 + 4 + ipsize v6 ≤ o.max)
    (hc : v6 = true → (left o < 28 ∨ 48 ≤ left o) ∧ ∀ n ∈ ns, n.link ≠ 4)
    (hn : ∀ n ∈ ns, n.addr.length = ipsize v6 ∧ n.status < 3 ∧ n.link < 5)
    (hd : (ns.map Nb.addr).Nodup) :
    ∃ o' ms, ∃ ps : List Msg, serialize v6 h ns o seq = some (o', (seq + ps.length) % 65536) ∧ o'.msgs = o.msgs ++ ms ∧
      o'.pend ≤ o.max ∧ ms.map (parse v6) = ps.map .ok ∧ ms ≠ [] ∧
      ((ps.map Msg.nbs).flatten).Perm ((ns.filter (fun n => n.link != 4)).map plain) ∧
      (∀ p ∈ ps, p.vtime = h.vtime ∧ p.orig = h.orig ∧ p.ttl = 1 ∧ p.hops = 0 ∧ p.htime = h.htime ∧ p.will = h.will) ∧
      (∀ i p, ps[i]? = some p → p.seq = (seq + i) % 65536) ∧
      (∀ m ∈ ms, m.length ≤ 1228 ∧ m.length ≤ o.max ∧ rd16 (m.getD 2 0) (m.getD 3 0) = m.length) := by
  obtain ⟨o', ms, ps, e1, e2, e3, e4, e5, e6, e7⟩ := round v6 h ns o seq ho hty hs hp hroom (by
    intro hv
    subst hv
    exact (hc rfl).1) hn hd
  refine ⟨o', ms, ps, e1, e2, e3, e4, e5, ?_, e7⟩
  have hf : ns.filter (fun n => v6 || decide (n.link < 4)) = ns.filter (fun n => n.link != 4) := by
    apply List.filter_congr
    intro n hm
    have h5 := (hn n hm).2.2
    cases v6 with
    | true =>
      have := (hc rfl).2 n hm
      simp [this]
    | false =>
      by_cases h4 : n.link = 4
      · simp [h4]
      · have : n.link < 4 := by omega
        simp [h4, this]
  rw [hf] at e6
  have hm : (ns.filter (fun n => n.link != 4)).map heard = (ns.filter (fun n => n.link != 4)).map plain := by
    apply List.map_congr_left
    intro n hn'
    have := (List.mem_filter.1 hn').2
    unfold heard plain
    rw [if_neg (by simpa using this)]
  rw [hm] at e6
  exact e6

/-- four neighbours, one of them with a hidden link -/
def exNbs : List Nb := [⟨[10, 0, 0, 1], 2, 2, 0, 0⟩, ⟨[10, 0, 0, 2], 0, 1, 0, 0⟩, ⟨[10, 0, 0, 3], 2, 2, 0, 0⟩, ⟨[10, 0, 0, 4], 4, 0, 0, 0⟩]
def exHead : Head := ⟨1, 0x86, [10, 9, 9, 9], 5, 3⟩

-- what is pending is sent first; the buffer has no room for two blocks
example : serialize false exHead exNbs ⟨31, 10, []⟩ 65535 =
    some (⟨31, 28, [[1, 0x86, 0, 24, 10, 9, 9, 9, 1, 0, 255, 255, 0, 0, 5, 3, 4, 0, 0, 8, 10, 0, 0, 2],
      [1, 0x86, 0, 28, 10, 9, 9, 9, 1, 0, 0, 0, 0, 0, 5, 3, 10, 0, 0, 12, 10, 0, 0, 1, 10, 0, 0, 3]]⟩, 1) := by decide

example : (exNbs.map Nb.addr).Nodup ∧ ∀ n ∈ exNbs, n.addr.length = ipsize false ∧ n.status < 3 ∧ n.link < 5 := by decide

/-- **C90 is false for IPv6 with hidden links**: a neighbour whose link is hidden by the hysteresis is announced all the same, as one
of unspecified link type, and as a symmetric neighbour even if it is none (`CREATE_LINK_CODE` with link type 4 sets a bit
of the neighbour type); an MPR becomes a neighbour of the unknown type 3. -/
theorem C90_hidden6_announced (h : Head) (ns : List Nb) (o : Out) (seq : Nat) (ho : h.orig.length = 16)
    (hty : h.ty = 1) (hs : seq < 65536) (hp : o.pend ≤ o.max) (hroom : 48 ≤ o.max) (hc : left o < 28 ∨ 48 ≤ left o)
    (hn : ∀ n ∈ ns, n.addr.length = 16 ∧ n.status < 3 ∧ n.link < 5) (hd : (ns.map Nb.addr).Nodup)
    (n : Nb) (hm : n ∈ ns) (hid : n.link = 4) :
    ∃ o' seq' m p nb, serialize true h ns o seq = some (o', seq') ∧ m ∈ o'.msgs ∧ parse true m = .ok p ∧ nb ∈ p.nbs ∧
      nb.addr = n.addr ∧ nb.link = 0 ∧ nb.status = (if n.status = 2 then 3 else 1) := by
  obtain ⟨o', ms, ps, e1, e2, e3, e4, e5, e6, e7⟩ := round true h ns o seq ho hty hs hp hroom (fun _ => hc) hn hd
  have hmem : heard n ∈ (ps.map Msg.nbs).flatten := by
    refine e6.mem_iff.2 (List.mem_map.2 ⟨n, List.mem_filter.2 ⟨hm, rfl⟩, rfl⟩)
  obtain ⟨l, hl, hnl⟩ := List.mem_flatten.1 hmem
  obtain ⟨p, hpp, rfl⟩ := List.mem_map.1 hl
  have hok : Hello.Res.ok p ∈ ms.map (parse true) := by rw [e4]; exact List.mem_map.2 ⟨p, hpp, rfl⟩
  obtain ⟨m, hmm, hpm⟩ := List.mem_map.1 hok
  refine ⟨o', _, m, p, heard n, e1, by rw [e2]; exact List.mem_append.2 (Or.inr hmm), hpm, hnl, heard_addr n, ?_, ?_⟩
  · unfold heard; rw [if_pos hid]
  · unfold heard; rw [if_pos hid]

/-- a neighbour that is not symmetric, with a hidden link -/
def exHid : Nb := ⟨[0xfd, 0, 0, 0, 0, 0, 0, 0, 0, 0, 0, 0, 0, 0, 0, 7], 4, 0, 0, 0⟩

example : serialize true ⟨1, 0x86, List.replicate 16 1, 5, 3⟩ [exHid] ⟨1400, 0, []⟩ 7 =
    some (⟨1400, 48, [[1, 0x86, 0, 48] ++ List.replicate 16 1 ++ [1, 0, 0, 7, 0, 0, 5, 3, 4, 0, 0, 20] ++ exHid.addr]⟩, 8) := by decide

/-- **C90 is false for IPv6 when the buffer is nearly full**: with 28 to 47 bytes left, `serialize_hello6` neither sends what is pending nor
goes on: the program ends, whatever there is to announce. -/
theorem C90_hello6_exits (h : Head) (ns : List Nb) (o : Out) (seq : Nat) (h1 : 28 ≤ left o) (h2 : left o < 48) :
    serialize true h ns o seq = none := by
  have e : off true = 28 := rfl
  have e' : firstCheck true = 20 := rfl
  unfold serialize
  simp only []
  have hn : ¬ 28 > left o := by omega
  rw [e, e', if_neg hn, if_pos (by omega)]

example : serialize true ⟨1, 0x86, List.replicate 16 1, 5, 3⟩ [] ⟨1400, 1370, []⟩ 7 = none := by decide

/-! ### C91: what is announced -/

private theorem links_eq (ls : List Link) : ∀ acc, ls.foldl addLink acc = ((ls.filter Link.here).map ofLink).reverse ++ acc := by
  induction ls with
  | nil => intro acc; rfl
  | cons l ls ih =>
    intro acc
    rw [List.foldl_cons, ih]
    unfold addLink
    cases hh : l.here with
    | true => simp [hh]
    | false => simp [hh]

/-- whether a neighbour has a link on the interface -/
def OnLink (ls : List Link) (n : Nbr) : Prop := ∃ l ∈ ls, l.here = true ∧ l.nbr.main = n.main

instance (ls : List Link) (n : Nbr) : Decidable (OnLink ls n) := by unfold OnLink; infer_instance

private theorem nbrs_perm (ns : List Nbr) : ∀ acc : List Ent, (ns.map Nbr.main).Nodup →
    (ns.foldl addNbr acc).Perm (acc ++ (ns.filter (fun n => !(acc.any (fun e => e.main == n.main)))).map ofNbr) := by
  induction ns with
  | nil => intro acc _; simp
  | cons n ns ih =>
    intro acc hd
    rw [List.map_cons] at hd
    have hd' := List.nodup_cons.1 hd
    rw [List.foldl_cons]
    refine (ih _ hd'.2).trans ?_
    unfold addNbr
    cases hc : acc.any (fun e => e.main == n.main) with
    | true =>
      have : (n :: ns).filter (fun n => !(acc.any (fun e => e.main == n.main))) = ns.filter (fun n => !(acc.any (fun e => e.main == n.main))) := by
        rw [List.filter_cons, if_neg (by rw [hc]; decide)]
      rw [this, if_pos rfl]
    | false =>
      have h1 : (n :: ns).filter (fun n => !(acc.any (fun e => e.main == n.main))) = n :: ns.filter (fun n => !(acc.any (fun e => e.main == n.main))) := by
        rw [List.filter_cons, if_pos (by rw [hc]; decide)]
      rw [h1, if_neg (by decide)]
      have h2 : ns.filter (fun m => !((ofNbr n :: acc).any (fun e => e.main == m.main))) = ns.filter (fun m => !(acc.any (fun e => e.main == m.main))) := by
        apply List.filter_congr
        intro m hm
        have hne : (ofNbr n).main ≠ m.main := by
          intro he
          exact hd'.1 (List.mem_map.2 ⟨m, hm, he.symm⟩)
        rw [List.any_cons, beq_eq_false_iff_ne.2 hne, Bool.false_or]
      rw [h2, List.map_cons, List.cons_append]
      exact List.perm_middle.symm

/-- **C91.**  On every interface, without link quality: the HELLO is made of one entry for each link on the interface,
with the neighbour's interface address and the status of the link; and, if there are several interfaces, of one entry for each other
neighbour, with its main address and an unspecified link type.  In both cases the neighbour type is MPR for an MPR, otherwise
symmetric for a symmetric neighbour. -/
theorem C91_announced (multi : Bool) (ls : List Link) (ns : List Nbr) (hd : (ns.map Nbr.main).Nodup) :
    ((build multi ls ns).map Ent.nb).Perm
      ((ls.filter Link.here).map (fun l => (⟨l.addr, l.status, nbType l.nbr, 0, 0⟩ : Nb)) ++
        if multi then (ns.filter (fun n => decide (¬ OnLink ls n))).map (fun n => (⟨n.main, 0, nbType n, 0, 0⟩ : Nb)) else []) ∧
    ∀ n : Nbr, (nbType n = 2 ↔ n.isMpr = true) ∧ (nbType n = 1 ↔ n.isMpr = false ∧ n.sym = true) ∧
      (nbType n = 0 ↔ n.isMpr = false ∧ n.sym = false) := by
  constructor
  · have hl : (ls.foldl addLink []).Perm ((ls.filter Link.here).map ofLink) := by
      rw [links_eq, List.append_nil]
      exact List.reverse_perm _
    have hany : ∀ n : Nbr, ((ls.foldl addLink []).any (fun e => e.main == n.main)) = decide (OnLink ls n) := by
      intro n
      rw [hl.any_eq]
      apply Bool.eq_iff_iff.2
      rw [decide_eq_true_iff, List.any_eq_true]
      constructor
      · rintro ⟨e, he, hm⟩
        obtain ⟨l, hl', rfl⟩ := List.mem_map.1 he
        have := List.mem_filter.1 hl'
        exact ⟨l, this.1, this.2, by simpa [ofLink] using hm⟩
      · rintro ⟨l, h1, h2, h3⟩
        exact ⟨ofLink l, List.mem_map.2 ⟨l, List.mem_filter.2 ⟨h1, h2⟩, rfl⟩, by simpa [ofLink] using h3⟩
    unfold build
    cases multi with
    | false =>
      simp only [Bool.false_eq_true, if_false, List.append_nil]
      have := hl.map Ent.nb
      rw [List.map_map] at this
      exact this
    | true =>
      simp only [if_true]
      have h1 := ((nbrs_perm ns (ls.foldl addLink []) hd).trans (List.Perm.append_right _ hl)).map Ent.nb
      rw [List.map_append, List.map_map, List.map_map] at h1
      have h2 : ns.filter (fun n => !((ls.foldl addLink []).any (fun e => e.main == n.main))) = ns.filter (fun n => decide (¬ OnLink ls n)) := by
        apply List.filter_congr
        intro n _
        rw [hany, decide_not]
      rw [h2] at h1
      exact h1
  · intro n
    unfold nbType
    cases n.isMpr <;> cases n.sym <;> decide

/-- two neighbours with a link on the interface, the second with a hidden one; a third has none -/
def exN : List Nbr := [⟨[1], true, true⟩, ⟨[2], false, true⟩, ⟨[3], false, true⟩]
def exL : List Link := [⟨[11], true, 2, ⟨[1], true, true⟩⟩, ⟨[12], false, 2, ⟨[2], false, true⟩⟩, ⟨[22], true, 4, ⟨[2], false, true⟩⟩]

example : (build true exL exN).map Ent.nb = [⟨[3], 0, 1, 0, 0⟩, ⟨[22], 4, 1, 0, 0⟩, ⟨[11], 2, 2, 0, 0⟩] ∧ (exN.map Nbr.main).Nodup := by decide

/-- **C91 (partial), what the receivers learn.**  Full claim: the HELLO messages sent on an interface of a node with several interfaces
tell the receivers of every symmetric neighbour.  Proved for the neighbours that have no hidden link on the interface: a
message names the main address or the address of an interface of the neighbour, as a symmetric neighbour or MPR.
For a neighbour with a hidden link it is false (`C91_hidden_unannounced`). -/
theorem C91_symmetric_heard_partial (v6 : Bool) (h : Head) (ls : List Link) (ns : List Nbr) (o : Out) (seq : Nat) (ho : h.orig.length = ipsize v6)
    (hty : h.ty = 1) (hs : seq < 65536) (hp : o.pend ≤ o.max) (hroom : off v6 + 4 + ipsize v6 ≤ o.max)
    (hc : v6 = true → left o < 28 ∨ 48 ≤ left o)
    (hl : ∀ l ∈ ls, l.addr.length = ipsize v6 ∧ l.status < 5 ∧ l.nbr ∈ ns) (hn : ∀ n ∈ ns, n.main.length = ipsize v6)
    (hd : (ns.map Nbr.main).Nodup) (hda : (((build true ls ns).map Ent.nb).map Nb.addr).Nodup)
    (n : Nbr) (hmem : n ∈ ns) (hsym : n.sym = true) (hvis : ∀ l ∈ ls, l.here = true → l.nbr = n → l.status ≠ 4) :
    ∃ o' seq' m p nb, serialize v6 h ((build true ls ns).map Ent.nb) o seq = some (o', seq') ∧ m ∈ o'.msgs ∧ parse v6 m = .ok p ∧
      nb ∈ p.nbs ∧ nb.status = (if n.isMpr then 2 else 1) ∧ (nb.addr = n.main ∨ ∃ l ∈ ls, l.nbr = n ∧ l.addr = nb.addr) := by
  obtain ⟨hperm, hty'⟩ := C91_announced true ls ns hd
  simp only [if_true] at hperm
  have hst : ∀ n : Nbr, nbType n < 3 := by
    intro n; unfold nbType; split
    · omega
    · split <;> omega
  have hok : ∀ x ∈ (build true ls ns).map Ent.nb, x.addr.length = ipsize v6 ∧ x.status < 3 ∧ x.link < 5 := by
    intro x hx
    rcases List.mem_append.1 (hperm.mem_iff.1 hx) with hx | hx
    · obtain ⟨l, hl', rfl⟩ := List.mem_map.1 hx
      have := hl l (List.mem_filter.1 hl').1
      exact ⟨this.1, hst _, this.2.1⟩
    · obtain ⟨m, hm, rfl⟩ := List.mem_map.1 hx
      exact ⟨hn m (List.mem_filter.1 hm).1, hst _, by show 0 < 5; omega⟩
  have hex : ∃ x ∈ (build true ls ns).map Ent.nb, x.link ≠ 4 ∧ x.status = nbType n ∧ (x.addr = n.main ∨ ∃ l ∈ ls, l.nbr = n ∧ l.addr = x.addr) := by
    by_cases hon : OnLink ls n
    · obtain ⟨l, h1, h2, h3⟩ := hon
      have heq : l.nbr = n := List.inj_on_of_nodup_map hd (hl l h1).2.2 hmem h3
      refine ⟨_, hperm.mem_iff.2 (List.mem_append.2 (Or.inl (List.mem_map.2 ⟨l, List.mem_filter.2 ⟨h1, h2⟩, rfl⟩))), ?_, ?_, Or.inr ⟨l, h1, heq, rfl⟩⟩
      · exact hvis l h1 h2 heq
      · show nbType l.nbr = _; rw [heq]
    · refine ⟨_, hperm.mem_iff.2 (List.mem_append.2 (Or.inr (List.mem_map.2 ⟨n, List.mem_filter.2 ⟨hmem, decide_eq_true hon⟩, rfl⟩))), ?_, rfl, Or.inl rfl⟩
      show (0 : Nat) ≠ 4
      omega
  obtain ⟨x, hx, hx4, hxs, hxa⟩ := hex
  obtain ⟨o', ms, ps, e1, e2, e3, e4, e5, e6, e7⟩ := round v6 h _ o seq ho hty hs hp hroom (fun hv => by subst hv; exact hc rfl) hok hda
  have hx5 := (hok x hx).2.2
  have hmem' : heard x ∈ (ps.map Msg.nbs).flatten := by
    refine e6.mem_iff.2 (List.mem_map.2 ⟨x, List.mem_filter.2 ⟨hx, ?_⟩, rfl⟩)
    have : x.link < 4 := by omega
    simp [this]
  obtain ⟨l, hl', hnl⟩ := List.mem_flatten.1 hmem'
  obtain ⟨p, hpp, rfl⟩ := List.mem_map.1 hl'
  have hokp : Hello.Res.ok p ∈ ms.map (parse v6) := by rw [e4]; exact List.mem_map.2 ⟨p, hpp, rfl⟩
  obtain ⟨m, hmm, hpm⟩ := List.mem_map.1 hokp
  refine ⟨o', _, m, p, heard x, e1, by rw [e2]; exact List.mem_append.2 (Or.inr hmm), hpm, hnl, ?_, ?_⟩
  · have : (heard x).status = x.status := by unfold heard; rw [if_neg hx4]
    rw [this, hxs]
    unfold nbType
    rw [hsym]; rfl
  · rw [heard_addr]; exact hxa

/-- the same with addresses of four bytes -/
def exN4 : List Nbr := [⟨[10, 0, 0, 1], true, true⟩, ⟨[10, 0, 0, 2], false, true⟩, ⟨[10, 0, 0, 3], false, true⟩]
def exL4 : List Link := [⟨[10, 1, 0, 1], true, 2, ⟨[10, 0, 0, 1], true, true⟩⟩, ⟨[10, 0, 0, 2], false, 2, ⟨[10, 0, 0, 2], false, true⟩⟩,
  ⟨[10, 1, 0, 2], true, 4, ⟨[10, 0, 0, 2], false, true⟩⟩]

example : (exN4.map Nbr.main).Nodup ∧ (((build true exL4 exN4).map Ent.nb).map Nb.addr).Nodup ∧
    (∀ l ∈ exL4, l.addr.length = ipsize false ∧ l.status < 5 ∧ l.nbr ∈ exN4) ∧
    (∀ l ∈ exL4, l.here = true → l.nbr = ⟨[10, 0, 0, 3], false, true⟩ → l.status ≠ 4) := by decide

/-- **C91 is false for hidden links**: the neighbour 10.0.0.2 is symmetric through another interface, but because it has a hidden link on
this one its entry is the hidden one, which is not sent, and there is no entry of unspecified link type: no HELLO on this interface
mentions it. -/
theorem C91_hidden_unannounced :
    ∃ o' m p, serialize false exHead ((build true exL4 exN4).map Ent.nb) ⟨1400, 0, []⟩ 7 = some (o', 8) ∧ o'.msgs = [m] ∧ parse false m = .ok p ∧
      p.nbs.map Nb.addr = [[10, 1, 0, 1], [10, 0, 0, 3]] := by
  refine ⟨⟨1400, 32, [[1, 0x86, 0, 32, 10, 9, 9, 9, 1, 0, 0, 7, 0, 0, 5, 3, 4, 0, 0, 8, 10, 0, 0, 3, 10, 0, 0, 8, 10, 1, 0, 1]]⟩, _,
    ⟨0x86, [10, 9, 9, 9], 1, 0, 7, 5, 3, [⟨[10, 1, 0, 1], 2, 2, 0, 0⟩, ⟨[10, 0, 0, 3], 0, 1, 0, 0⟩]⟩, ?_, rfl, ?_, ?_⟩
  · decide
  · decide +kernel
  · decide

end Verif.RfcHello
