import Verif.RfcTcModel
import Verif.BuildMsgLemmas

/-! Property C92: TC messages without link quality. -/
namespace Verif.RfcTc

open Verif BuildMsg

/-! ### The format, as a receiver of the standard reads it -/

/-- A TC message of RFC 3626, section 9.1 -/
structure Tc where
  vtime : Nat
  orig : List Nat
  ttl : Nat
  hops : Nat
  seq : Nat
  ansn : Nat
  addrs : List (List Nat)
  deriving DecidableEq, Repr

/-- Cuts a list of bytes into pieces of `k` bytes; `none` if there is a rest. -/
def pieces (k : Nat) : Nat → List Nat → Option (List (List Nat))
  | _, [] => some []
  | 0, _ :: _ => none
  | fuel + 1, x :: l =>
    if (x :: l).length < k then none
    else (pieces k fuel ((x :: l).drop k)).map (fun r => (x :: l).take k :: r)

/-- Reads a message with addresses of `k` bytes: the type is 2 and the size is that of the message. -/
def readTc (k : Nat) (m : List Nat) : Option Tc :=
  if m.length < 12 + k ∨ m.getD 0 0 ≠ 2 ∨ m.getD 2 0 * 256 + m.getD 3 0 ≠ m.length ∨ m.getD (k + 10) 0 ≠ 0 ∨ m.getD (k + 11) 0 ≠ 0 then none
  else
    (pieces k m.length (m.drop (k + 12))).map (fun as =>
      { vtime := m.getD 1 0
        orig := (m.drop 4).take k
        ttl := m.getD (k + 4) 0
        hops := m.getD (k + 5) 0
        seq := m.getD (k + 6) 0 * 256 + m.getD (k + 7) 0
        ansn := m.getD (k + 8) 0 * 256 + m.getD (k + 9) 0
        addrs := as })

private theorem pieces_flatten (k : Nat) (hk : 0 < k) (as : List (List Nat)) : ∀ fuel, as.length ≤ fuel → (∀ a ∈ as, a.length = k) →
    pieces k fuel as.flatten = some as := by
  induction as with
  | nil => intro fuel _ _; cases fuel <;> rfl
  | cons a as ih =>
    intro fuel hf h
    have ha := h a (List.mem_cons_self ..)
    cases fuel with
    | zero => simp at hf
    | succ fuel =>
      rw [List.flatten_cons]
      cases a with
      | nil => simp at ha; omega
      | cons x xs =>
        rw [List.cons_append, pieces, ← List.cons_append, if_neg (by rw [List.length_append]; omega)]
        have h1 : ((x :: xs) ++ as.flatten).drop k = as.flatten := by rw [← ha, List.drop_left]
        have h2 : ((x :: xs) ++ as.flatten).take k = x :: xs := by rw [← ha, List.take_left]
        rw [h1, h2, ih fuel (by simp at hf; omega) (fun b hb => h b (List.mem_cons_of_mem _ hb))]
        rfl

private theorem flat_len (k : Nat) (as : List (List Nat)) (h : ∀ a ∈ as, a.length = k) : as.flatten.length = as.length * k :=
  flatten_length k as h

private theorem enc_length (h : TcPkt.Hdr) (as : List (List Nat)) (k : Nat) (ho : h.orig.length = k) (ha : ∀ a ∈ as, a.length = k) :
    (TcSet.encodeRfc h as).length = 12 + k + as.length * k := by
  simp only [TcSet.encodeRfc, TcPkt.be16, List.length_append, List.length_cons, List.length_nil, ho, flat_len k as ha]
  omega

private theorem be_val (x : Nat) (h : x < 65536) : x / 256 % 256 * 256 + x % 256 = x := by omega

private theorem read_enc (h : TcPkt.Hdr) (as : List (List Nat)) (k : Nat) (hk : 0 < k) (ho : h.orig.length = k) (ha : ∀ a ∈ as, a.length = k)
    (hs : h.seq < 65536) (hn : h.ansn < 65536) (hl : 12 + k + as.length * k < 65536) :
    readTc k (TcSet.encodeRfc h as) = some ⟨h.vtime, h.orig, h.ttl, h.hops, h.seq, h.ansn, as⟩ := by
  have hlen := enc_length h as k ho ha
  obtain ⟨sz, hsz⟩ : ∃ x, x = 12 + k + as.length * k := ⟨_, rfl⟩
  have e : TcSet.encodeRfc h as = 2 :: h.vtime :: (sz / 256 % 256) :: (sz % 256) ::
      (h.orig ++ (h.ttl :: h.hops :: (h.seq / 256 % 256) :: (h.seq % 256) :: (h.ansn / 256 % 256) :: (h.ansn % 256) :: 0 :: 0 :: as.flatten)) := by
    have : TcPkt.off h.orig.length + as.length * h.orig.length = sz := by rw [ho, hsz]; unfold TcPkt.off; omega
    simp [TcSet.encodeRfc, TcPkt.be16, this]
  have g : ∀ j, (TcSet.encodeRfc h as).getD (k + (j + 4)) 0 =
      (h.ttl :: h.hops :: (h.seq / 256 % 256) :: (h.seq % 256) :: (h.ansn / 256 % 256) :: (h.ansn % 256) :: 0 :: 0 :: as.flatten).getD j 0 := by
    intro j
    rw [e, show k + (j + 4) = (h.orig.length + j) + 4 by omega]
    simp only [List.getD_cons_succ]
    rw [List.getD_eq_getElem?_getD, List.getD_eq_getElem?_getD, List.getElem?_append_right (by omega)]
    rw [show h.orig.length + j - h.orig.length = j by omega]
  have g4 := g 0
  have g5 := g 1
  have g6 := g 2
  have g7 := g 3
  have g8 := g 4
  have g9 := g 5
  have g10 := g 6
  have g11 := g 7
  simp only [Nat.zero_add, List.getD_cons_zero, List.getD_cons_succ, Nat.reduceAdd] at g4 g5 g6 g7 g8 g9 g10 g11
  have f0 : (TcSet.encodeRfc h as).getD 0 0 = 2 := by rw [e]; rfl
  have f1 : (TcSet.encodeRfc h as).getD 1 0 = h.vtime := by rw [e]; rfl
  have f2 : (TcSet.encodeRfc h as).getD 2 0 = sz / 256 % 256 := by rw [e]; rfl
  have f3 : (TcSet.encodeRfc h as).getD 3 0 = sz % 256 := by rw [e]; rfl
  have fo : ((TcSet.encodeRfc h as).drop 4).take k = h.orig := by
    rw [e]
    simp only [List.drop_succ_cons, List.drop_zero]
    rw [← ho, List.take_left]
  have fd : (TcSet.encodeRfc h as).drop (k + 12) = as.flatten := by
    rw [e, show k + 12 = (h.orig.length + 8) + 4 by omega]
    simp only [List.drop_succ_cons]
    rw [← List.drop_drop, List.drop_left]
    rfl
  have hge : as.length ≤ as.length * k := by
    have := Nat.mul_le_mul_left as.length hk
    omega
  unfold readTc
  rw [f0, f1, f2, f3, fo, fd, g4, g5, g6, g7, g8, g9, g10, g11, hlen, if_neg, pieces_flatten k hk as (12 + k + as.length * k) (by omega) ha]
  · rw [be_val _ hs, be_val _ hn]; rfl
  · rintro (h1 | h1 | h1 | h1 | h1)
    · omega
    · exact h1 rfl
    · apply h1; rw [← hsz]; exact be_val _ (by omega)
    · exact h1 rfl
    · exact h1 rfl

/-! ### The writer -/

/-- the messages made of the given lists of addresses, with consecutive sequence numbers -/
private def sealedT (h : TcPkt.Hdr) : Nat → List (List (List Nat)) → List (List Nat)
  | _, [] => []
  | seq, c :: cs => TcSet.encodeRfc { h with seq := seq } c :: sealedT h ((seq + 1) % 65536) cs

private theorem sealedT_append (h : TcPkt.Hdr) (ds cs : List (List (List Nat))) :
    ∀ seq, seq < 65536 → sealedT h seq (cs ++ ds) = sealedT h seq cs ++ sealedT h ((seq + cs.length) % 65536) ds := by
  induction cs with
  | nil => intro seq hs; simp [sealedT, Nat.mod_eq_of_lt hs]
  | cons x xs ih =>
    intro seq hs
    simp only [List.cons_append, sealedT, List.length_cons]
    rw [ih _ (Nat.mod_lt _ (by omega))]
    have e : ((seq + 1) % 65536 + xs.length) % 65536 = (seq + (xs.length + 1)) % 65536 := by omega
    rw [e]

private structure Inv (v6 : Bool) (g : Gen) : Prop where
  rem : g.rem = left g.out
  pend : g.out.pend ≤ g.out.max
  addr : ∀ a ∈ g.cur, a.length = ipsize v6
  fits : 12 + ipsize v6 + g.cur.length * ipsize v6 ≤ g.rem
  seq : g.seq < 65536
  found : g.found = true ↔ g.cur ≠ []
  part : g.part = true → g.cur ≠ []

private theorem curr_eq {v6 : Bool} {g : Gen} (hi : Inv v6 g) : curr v6 g = 12 + ipsize v6 + g.cur.length * ipsize v6 := by
  unfold curr TcPkt.off
  rw [flat_len _ _ hi.addr]; omega

private theorem ip_pos (v6 : Bool) : 0 < ipsize v6 := by cases v6 <;> decide

private theorem send_ok {v6 : Bool} {h : TcPkt.Hdr} {g : Gen} (hi : Inv v6 g) (ho : h.orig.length = ipsize v6) :
    send h g = { g.out with pend := g.out.pend + (TcSet.encodeRfc { h with seq := g.seq } g.cur).length, msgs := g.out.msgs ++ [TcSet.encodeRfc { h with seq := g.seq } g.cur] } ∧
    g.out.pend + (TcSet.encodeRfc { h with seq := g.seq } g.cur).length ≤ g.out.max := by
  have hl := enc_length { h with seq := g.seq } g.cur (ipsize v6) ho hi.addr
  have h1 := hi.fits
  have h2 := hi.rem
  have h3 := hi.pend
  have h4 : left g.out ≤ g.out.max - g.out.pend := by unfold BuildMsg.left; split <;> omega
  constructor
  · unfold send push
    rw [if_neg (by rw [hl]; omega)]
  · rw [hl]; omega

private theorem addAddr_ok {v6 : Bool} {h : TcPkt.Hdr} {g : Gen} {a : List Nat} (hi : Inv v6 g) (ho : h.orig.length = ipsize v6)
    (ha : a.length = ipsize v6) (hr : 12 + 2 * ipsize v6 ≤ room g.out) :
    ∃ g' chs, addAddr v6 h g a = some g' ∧ Inv v6 g' ∧ g'.out.max = g.out.max ∧ g'.out.msgs = g.out.msgs ++ sealedT h g.seq chs ∧
      g'.seq = (g.seq + chs.length) % 65536 ∧ chs.flatten ++ g'.cur = g.cur ++ [a] ∧
      (∀ c ∈ chs, c ≠ [] ∧ 12 + ipsize v6 + c.length * ipsize v6 ≤ room g.out) ∧ g'.found = true := by
  have hip := ip_pos v6
  have hce := curr_eq hi
  have hfit := hi.fits
  have hrem := hi.rem
  have hseq := hi.seq
  by_cases hbig : curr v6 g + ipsize v6 > g.rem
  · obtain ⟨g1, hG⟩ : ∃ g1, g1 = flush v6 h g := ⟨_, rfl⟩
    have hF : g1.cur = [] ∧ ∃ chs : List (List (List Nat)), g1.out.max = g.out.max ∧ g1.out.msgs = g.out.msgs ++ sealedT h g.seq chs ∧
        g1.seq = (g.seq + chs.length) % 65536 ∧ chs.flatten = g.cur ∧
        (∀ c ∈ chs, c ≠ [] ∧ 12 + ipsize v6 + c.length * ipsize v6 ≤ room g.out) := by
      by_cases hc : curr v6 g > TcPkt.off (ipsize v6)
      · have e : g1 = { g with out := send h g, cur := [], seq := (g.seq + 1) % 65536, found := false, part := true } := by
          rw [hG, flush, if_pos hc]
        obtain ⟨hs1, hs2⟩ := send_ok (h := h) hi ho
        refine ⟨by rw [e], [g.cur], ?_, ?_, ?_, by simp, ?_⟩
        · rw [e, hs1]
        · rw [e, hs1]; simp [sealedT]
        · rw [e]; rfl
        · intro c hc'
          simp at hc'
          rw [hc']
          refine ⟨?_, ?_⟩
          · intro h0
            rw [h0] at hce
            unfold TcPkt.off at hc
            simp at hce; omega
          · have := left_le_room g.out
            omega
      · have e : g1 = g := by rw [hG, flush, if_neg hc]
        have h0 : g.cur = [] := by
          cases hcur : g.cur with
          | nil => rfl
          | cons x xs =>
            exfalso
            rw [hcur, List.length_cons, Nat.add_mul] at hce
            unfold TcPkt.off at hc
            omega
        rw [e]
        exact ⟨h0, [], rfl, by simp [sealedT], by simp; omega, by rw [h0]; rfl, (fun c hc => (by cases hc))⟩
    obtain ⟨h0, chs, q1, q2, q3, q4, q5⟩ := hF
    have hroom : room g1.out = room g.out := by unfold room; rw [q1]
    have hc1 : curr v6 g1 = 12 + ipsize v6 := by unfold curr; rw [h0]; unfold TcPkt.off; simp; omega
    refine ⟨{ g1 with out := output g1.out, rem := left (output g1.out), cur := g1.cur ++ [a], found := true }, chs, ?_, ?_, q1, q2, q3, ?_, q5, rfl⟩
    · unfold addAddr
      rw [if_pos hbig, ← hG, if_neg]
      rw [hc1, left_output, hroom]; omega
    · refine ⟨rfl, (by show 0 ≤ _; omega), ?_, ?_, ?_, ?_, ?_⟩
      · show ∀ b ∈ g1.cur ++ [a], _
        rw [h0]; intro b hb; simp at hb; rw [hb]; exact ha
      · show _ + (g1.cur ++ [a]).length * _ ≤ left (output g1.out)
        rw [h0, left_output, hroom]; simp; omega
      · show g1.seq < _; rw [q3]; exact Nat.mod_lt _ (by omega)
      · show true = true ↔ g1.cur ++ [a] ≠ []; simp
      · intro _; show g1.cur ++ [a] ≠ []; simp
    · show chs.flatten ++ (g1.cur ++ [a]) = _
      rw [h0, q4]; rfl
  · refine ⟨{ g with cur := g.cur ++ [a], found := true }, [], ?_, ?_, rfl, by simp [sealedT], by simp; omega, by simp, (fun c hc => (by cases hc)), rfl⟩
    · unfold addAddr
      rw [if_neg hbig]
    · refine ⟨hi.rem, hi.pend, ?_, ?_, hi.seq, ?_, ?_⟩
      · intro b hb
        rcases List.mem_append.1 hb with hb | hb
        · exact hi.addr b hb
        · simp at hb; rw [hb]; exact ha
      · show _ + (g.cur ++ [a]).length * _ ≤ g.rem
        rw [List.length_append, List.length_singleton, Nat.add_mul, Nat.one_mul]
        omega
      · show true = true ↔ g.cur ++ [a] ≠ []; simp
      · intro _; show g.cur ++ [a] ≠ []; simp

private theorem addAddrs_ok {v6 : Bool} {h : TcPkt.Hdr} (ho : h.orig.length = ipsize v6) (as : List (List Nat)) :
    ∀ g : Gen, Inv v6 g → (∀ a ∈ as, a.length = ipsize v6) → (as ≠ [] → 12 + 2 * ipsize v6 ≤ room g.out) →
    ∃ g' chs, addAddrs v6 h g as = some g' ∧ Inv v6 g' ∧ g'.out.max = g.out.max ∧ g'.out.msgs = g.out.msgs ++ sealedT h g.seq chs ∧
      g'.seq = (g.seq + chs.length) % 65536 ∧ chs.flatten ++ g'.cur = g.cur ++ as ∧
      (∀ c ∈ chs, c ≠ [] ∧ 12 + ipsize v6 + c.length * ipsize v6 ≤ room g.out) ∧
      (as = [] → g' = g ∧ chs = []) ∧ (as ≠ [] → g'.found = true) := by
  induction as with
  | nil =>
    intro g hi _ _
    have := hi.seq
    exact ⟨g, [], rfl, hi, rfl, by simp [sealedT], by simp; omega, by simp, (fun c hc => (by cases hc)), (fun _ => ⟨rfl, rfl⟩), (fun hc => absurd rfl hc)⟩
  | cons a as ih =>
    intro g hi ha hr
    obtain ⟨g1, c1, e1, i1, a1, a2, a3, a4, a5, a6⟩ := addAddr_ok (h := h) hi ho (ha a (List.mem_cons_self ..)) (hr (by simp))
    have hroom : room g1.out = room g.out := by unfold room; rw [a1]
    obtain ⟨g2, c2, e2, i2, b1, b2, b3, b4, b5, b6, b7⟩ := ih g1 i1 (fun x hx => ha x (List.mem_cons_of_mem _ hx))
      (fun _ => by rw [hroom]; exact hr (by simp))
    have hseq := hi.seq
    refine ⟨g2, c1 ++ c2, ?_, i2, by rw [b1, a1], ?_, ?_, ?_, ?_, (fun hc => by cases hc), ?_⟩
    · rw [addAddrs, e1]; exact e2
    · rw [b2, a2, sealedT_append _ _ _ _ hseq, a3, List.append_assoc]
    · rw [b3, a3, List.length_append]; omega
    · rw [List.flatten_append, List.append_assoc, b4, ← List.append_assoc, a4]; simp
    · intro c hc
      rcases List.mem_append.1 hc with hc | hc
      · exact a5 c hc
      · have := b5 c hc
        rw [hroom] at this; exact this
    · intro _
      by_cases hn : as = []
      · rw [(b6 hn).1]; exact a6
      · exact b7 hn

private theorem read_sealed {v6 : Bool} {h : TcPkt.Hdr} (ho : h.orig.length = ipsize v6) (hn : h.ansn < 65536) (B : Nat) (hB : B ≤ 1228)
    (chs : List (List (List Nat))) : ∀ seq, seq < 65536 →
    (∀ c ∈ chs, (∀ a ∈ c, a.length = ipsize v6) ∧ 12 + ipsize v6 + c.length * ipsize v6 ≤ B) →
    ∃ ps : List Tc, (sealedT h seq chs).map (readTc (ipsize v6)) = ps.map some ∧ ps.map Tc.addrs = chs ∧
      (∀ p ∈ ps, p.vtime = h.vtime ∧ p.orig = h.orig ∧ p.ttl = h.ttl ∧ p.hops = h.hops ∧ p.ansn = h.ansn) ∧
      (∀ i p, ps[i]? = some p → p.seq = (seq + i) % 65536) ∧
      (∀ m ∈ sealedT h seq chs, m.length ≤ B) := by
  induction chs with
  | nil =>
    intro seq _ _
    refine ⟨[], rfl, rfl, (fun _ hp => (by cases hp)), ?_, (fun _ hm => (by cases hm))⟩
    intro i p hp; simp at hp
  | cons c cs ih =>
    intro seq hs hc
    obtain ⟨ps, h1, h2, h3, h4, h5⟩ := ih ((seq + 1) % 65536) (Nat.mod_lt _ (by omega)) (fun c hc' => hc c (List.mem_cons_of_mem _ hc'))
    have hcc := hc c (List.mem_cons_self ..)
    have hr := read_enc { h with seq := seq } c (ipsize v6) (ip_pos v6) ho hcc.1 hs hn (by omega)
    obtain ⟨q, hq⟩ : ∃ q : Tc, q = ⟨h.vtime, h.orig, h.ttl, h.hops, seq, h.ansn, c⟩ := ⟨_, rfl⟩
    have hr' : readTc (ipsize v6) (TcSet.encodeRfc { h with seq := seq } c) = some q := by rw [hq]; exact hr
    refine ⟨q :: ps, ?_, ?_, ?_, ?_, ?_⟩
    · simp only [sealedT, List.map_cons, h1, hr']
    · rw [List.map_cons, h2, hq]
    · intro p hp
      rcases List.mem_cons.1 hp with hp | hp
      · rw [hp, hq]; exact ⟨rfl, rfl, rfl, rfl, rfl⟩
      · exact h3 p hp
    · intro i p hi
      cases i with
      | zero =>
        simp at hi
        rw [← hi, hq]
        show seq = _
        omega
      | succ i =>
        simp at hi
        have := h4 i p hi
        rw [this]; omega
    · intro m hm
      rcases List.mem_cons.1 hm with rfl | hm
      · rw [enc_length { h with seq := seq } c (ipsize v6) ho hcc.1]; exact hcc.2
      · exact h5 m hm

private theorem sealedT_length (h : TcPkt.Hdr) (cs : List (List (List Nat))) : ∀ q, (sealedT h q cs).length = cs.length := by
  induction cs with
  | nil => intro q; rfl
  | cons c cs ih => intro q; rw [sealedT, List.length_cons, ih, List.length_cons]

/-- **C92.**  Without link quality, for every list of addresses to be announced and every output buffer that has room for a message with one
address: the program goes on; reading the TC messages generated yields the addresses in order, split over messages that all have the
given header, the same ANSN and consecutive sequence numbers, that fit the buffer and none of which is empty; with nothing to announce there
is one empty message if that is asked for and otherwise none, and no sequence number is used up.  The function tells whether there was any
message. -/
theorem C92_roundtrip (v6 : Bool) (h : TcPkt.Hdr) (as : List (List Nat)) (empty : Bool) (o : Out) (seq : Nat)
    (ho : h.orig.length = ipsize v6) (hn : h.ansn < 65536) (hs : seq < 65536) (hp : o.pend ≤ o.max)
    (hroom : 12 + 2 * ipsize v6 ≤ o.max) (ha : ∀ a ∈ as, a.length = ipsize v6) :
    ∃ o' ms, ∃ ps : List Tc, serialize v6 h as empty o seq = some (o', (seq + ms.length) % 65536, decide (ms ≠ [])) ∧
      o'.msgs = o.msgs ++ ms ∧ o'.pend ≤ o'.max ∧ o'.max = o.max ∧ ms.map (readTc (ipsize v6)) = ps.map some ∧
      (ps.map Tc.addrs).flatten = as ∧
      (∀ p ∈ ps, p.vtime = h.vtime ∧ p.orig = h.orig ∧ p.ttl = h.ttl ∧ p.hops = h.hops ∧ p.ansn = h.ansn) ∧
      (∀ i p, ps[i]? = some p → p.seq = (seq + i) % 65536) ∧
      (∀ m ∈ ms, m.length ≤ 1228 ∧ m.length ≤ o.max) ∧
      (as ≠ [] → ms ≠ [] ∧ ∀ p ∈ ps, p.addrs ≠ []) ∧ (as = [] → ms.length = if empty then 1 else 0) := by
  have hip := ip_pos v6
  have hro : 12 + 2 * ipsize v6 ≤ room o := by
    unfold room; split
    · cases v6 <;> decide
    · exact hroom
  have hrl : room o ≤ 1228 ∧ room o ≤ o.max := by unfold room; split <;> omega
  have hoff : TcPkt.off (ipsize v6) = 12 + ipsize v6 := by unfold TcPkt.off; omega
  obtain ⟨o1, hO⟩ : ∃ o1, o1 = if TcPkt.off (ipsize v6) > left o then output o else o := ⟨_, rfl⟩
  have h1 : o1.max = o.max ∧ o1.msgs = o.msgs ∧ o1.pend ≤ o1.max ∧ TcPkt.off (ipsize v6) ≤ left o1 := by
    by_cases hc : TcPkt.off (ipsize v6) > left o
    · rw [if_pos hc] at hO
      rw [hO]
      refine ⟨rfl, rfl, (by show 0 ≤ _; omega), ?_⟩
      rw [left_output]; omega
    · rw [if_neg hc] at hO
      rw [hO]
      exact ⟨rfl, rfl, hp, by omega⟩
  obtain ⟨m1, m2, m3, m4⟩ := h1
  have hroom1 : room o1 = room o := by unfold room; rw [m1]
  have hi0 : Inv v6 { out := o1, rem := left o1, cur := [], seq := seq, found := false, part := false } :=
    ⟨rfl, m3, (fun _ hb => (by cases hb)), (by show 12 + ipsize v6 + 0 * _ ≤ left o1; omega), hs, (by simp), (by simp)⟩
  obtain ⟨g, chs, e, i, b1, b2, b3, b4, b5, b6, b7⟩ := addAddrs_ok ho as _ hi0 ha (fun _ => by show _ ≤ room o1; rw [hroom1]; exact hro)
  have hgm : g.out.max = o.max := by rw [b1]; exact m1
  have hgr : room g.out = room o := by unfold room; rw [hgm]
  have b2' : g.out.msgs = o.msgs ++ sealedT h seq chs := by rw [b2]; show o1.msgs ++ _ = _; rw [m2]
  have b3' : g.seq = (seq + chs.length) % 65536 := b3
  have b4' : chs.flatten ++ g.cur = as := by rw [b4]; rfl
  have b5' : ∀ c ∈ chs, c ≠ [] ∧ 12 + ipsize v6 + c.length * ipsize v6 ≤ room o := by
    intro c hc
    have := b5 c hc
    rw [show room (Gen.out { out := o1, rem := left o1, cur := [], seq := seq, found := false, part := false }) = room o1 from rfl, hroom1] at this
    exact this
  have hca : ∀ c ∈ chs ++ [g.cur], ∀ a ∈ c, a.length = ipsize v6 := by
    intro c hc a ha'
    apply ha
    rw [← b4']
    rcases List.mem_append.1 hc with hc | hc
    · exact List.mem_append.2 (Or.inl (List.mem_flatten.2 ⟨c, hc, ha'⟩))
    · simp at hc; rw [hc] at ha'; exact List.mem_append.2 (Or.inr ha')
  have hfit : 12 + ipsize v6 + g.cur.length * ipsize v6 ≤ room o := by
    have h1 := i.fits
    have h2 := i.rem
    have h3 := left_le_room g.out
    omega
  have hall : ∀ c ∈ chs ++ [g.cur], (∀ a ∈ c, a.length = ipsize v6) ∧ 12 + ipsize v6 + c.length * ipsize v6 ≤ room o := by
    intro c hc
    refine ⟨hca c hc, ?_⟩
    rcases List.mem_append.1 hc with hc | hc
    · exact (b5' c hc).2
    · simp at hc; rw [hc]; exact hfit
  obtain ⟨hs1, hs2⟩ := send_ok (h := h) i ho
  have hser : ∀ x, x = (if g.found || (!g.part && empty) then some (send h g, (g.seq + 1) % 65536, true) else some (g.out, g.seq, false)) →
      serialize v6 h as empty o seq = x := by
    intro x hx
    unfold serialize
    simp only []
    rw [← hO, if_neg (by omega), e, hx]
  by_cases hsend : (g.found || (!g.part && empty)) = true
  · obtain ⟨ps, p1, p2, p3, p4, p5⟩ := read_sealed ho hn (room o) hrl.1 (chs ++ [g.cur]) seq hs hall
    have hmsgs : (send h g).msgs = o.msgs ++ sealedT h seq (chs ++ [g.cur]) := by
      rw [hs1, sealedT_append _ _ _ _ hs]
      show g.out.msgs ++ _ = _
      rw [b2', b3', List.append_assoc]
      rfl
    refine ⟨send h g, sealedT h seq (chs ++ [g.cur]), ps, ?_, hmsgs, by rw [hs1]; exact hs2, by rw [hs1]; exact hgm, p1, ?_, p3, p4, ?_, ?_, ?_⟩
    · apply hser
      rw [if_pos hsend, sealedT_length, List.length_append, List.length_singleton, b3']
      have h1 : ((seq + chs.length) % 65536 + 1) % 65536 = (seq + (chs.length + 1)) % 65536 := by omega
      have h2 : decide (sealedT h seq (chs ++ [g.cur]) ≠ []) = true := by
        apply decide_eq_true
        intro hc
        have := congrArg List.length hc
        rw [sealedT_length] at this
        simp at this
      rw [h1, h2]
    · rw [p2, List.flatten_append]
      simpa using b4'
    · intro m hm
      have := p5 m hm
      omega
    · intro hne
      refine ⟨?_, ?_⟩
      · intro hc
        have := congrArg List.length hc
        rw [sealedT_length] at this
        simp at this
      · intro p hp hc
        have hm : p.addrs ∈ chs ++ [g.cur] := by rw [← p2]; exact List.mem_map.2 ⟨p, hp, rfl⟩
        rw [hc] at hm
        rcases List.mem_append.1 hm with hm | hm
        · exact (b5' _ hm).1 rfl
        · simp at hm
          exact i.found.1 (b7 hne) hm
    · intro hnil
      obtain ⟨hg, hch⟩ := b6 hnil
      have h1 : g.found = false := by rw [hg]
      have h2 : g.part = false := by rw [hg]
      rw [h1, h2] at hsend
      have : empty = true := by simpa using hsend
      rw [this, sealedT_length, hch]; rfl
  · have hne : as = [] := by
      by_cases hc : as = []
      · exact hc
      · exfalso; apply hsend; rw [b7 hc]; rfl
    obtain ⟨hg, hch⟩ := b6 hne
    have h1 : g.found = false := by rw [hg]
    have h2 : g.part = false := by rw [hg]
    have he : empty = false := by
      rw [h1, h2] at hsend
      simpa using hsend
    refine ⟨g.out, [], [], ?_, ?_, ?_, hgm, rfl, by rw [hne]; rfl, (fun p hp => (by cases hp)), (fun i p hp => by simp at hp), (fun m hm => (by cases hm)), (fun hc => absurd hne hc), ?_⟩
    · apply hser
      rw [if_neg hsend]
      have : g.seq = (seq + 0) % 65536 := by rw [b3', hch]; rfl
      rw [this]
      rfl
    · rw [b2', hch]; rfl
    · exact i.pend
    · intro _; rw [he]; rfl

/-- three addresses, a nearly full buffer, and room for two addresses in an empty one -/
example : serialize false ⟨0x86, [10, 9, 9, 9], 255, 0, 0, 513, 0, 0⟩ [[10, 0, 0, 1], [10, 0, 0, 2], [10, 0, 0, 3]] true ⟨24, 6, []⟩ 65535 =
    some (⟨24, 20, [[2, 0x86, 0, 24, 10, 9, 9, 9, 255, 0, 255, 255, 2, 1, 0, 0, 10, 0, 0, 1, 10, 0, 0, 2],
      [2, 0x86, 0, 20, 10, 9, 9, 9, 255, 0, 0, 0, 2, 1, 0, 0, 10, 0, 0, 3]]⟩, 1, true) := by decide

/-- When even an empty buffer has no room for one address, the program ends. -/
theorem C92_small_buffer_exits (v6 : Bool) (h : TcPkt.Hdr) (a : List Nat) (as : List (List Nat)) (empty : Bool) (o : Out) (seq : Nat)
    (hsmall : o.max < 12 + 2 * ipsize v6) : serialize v6 h (a :: as) empty o seq = none := by
  have hl : ∀ o' : Out, o'.max = o.max → left o' < 12 + 2 * ipsize v6 := by
    intro o' ho'
    have := left_le_room o'
    unfold room at this
    split at this <;> omega
  unfold serialize
  simp only []
  obtain ⟨o1, hO⟩ : ∃ o1, o1 = if TcPkt.off (ipsize v6) > left o then output o else o := ⟨_, rfl⟩
  have hm : o1.max = o.max := by rw [hO]; split <;> rfl
  rw [← hO]
  split
  · rfl
  · have hA : addAddr v6 h { out := o1, rem := left o1, cur := [], seq := seq, found := false, part := false } a = none := by
      have h1 := hl o1 hm
      have h2 := hl (output o1) hm
      have hF : flush v6 h { out := o1, rem := left o1, cur := [], seq := seq, found := false, part := false } =
          { out := o1, rem := left o1, cur := [], seq := seq, found := false, part := false } := by
        unfold flush curr; simp
      have hc : ∀ (x : Nat), curr v6 { out := o1, rem := x, cur := [], seq := seq, found := false, part := false } = 12 + ipsize v6 := by
        intro x; unfold curr TcPkt.off; simp; omega
      unfold addAddr
      rw [hF, hc, if_pos (by show _ > left o1; omega), if_pos (by show _ > left (output o1); omega)]
    rw [addAddrs, hA]

example : serialize true ⟨0x86, List.replicate 16 1, 255, 0, 0, 513, 0, 0⟩ [List.replicate 16 2] true ⟨43, 0, []⟩ 9 = none := by decide

end Verif.RfcTc
