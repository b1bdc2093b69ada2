import Verif.RfcHelloModel
import Verif.HelloLemmas

/-! Helper lemmas about HELLO messages without link quality. -/
namespace Verif.RfcHello

open Verif BuildMsg Hello

/-- the messages made of the given lists of blocks, with consecutive sequence numbers -/
def sealedR (v6 : Bool) (h : Head) : Nat → List (List Block) → List (List Nat)
  | _, [] => []
  | seq, c :: cs => bytes v6 false h seq c :: sealedR v6 h ((seq + 1) % 65536) cs

theorem sealedR_append (v6 : Bool) (h : Head) (ds : List (List Block)) (cs : List (List Block)) :
    ∀ seq, seq < 65536 → sealedR v6 h seq (cs ++ ds) =
      sealedR v6 h seq cs ++ sealedR v6 h ((seq + cs.length) % 65536) ds := by
  induction cs with
  | nil => intro seq hs; simp [sealedR, Nat.mod_eq_of_lt hs]
  | cons x xs ih =>
    intro seq hs
    simp only [List.cons_append, sealedR, List.length_cons]
    rw [ih _ (Nat.mod_lt _ (by omega))]
    have e : ((seq + 1) % 65536 + xs.length) % 65536 = (seq + (xs.length + 1)) % 65536 := by omega
    rw [e]

theorem sealedR_length (v6 : Bool) (h : Head) (cs : List (List Block)) : ∀ q, (sealedR v6 h q cs).length = cs.length := by
  induction cs with
  | nil => intro q; rfl
  | cons c cs ih => intro q; rw [sealedR, List.length_cons, ih, List.length_cons]

/-- size of the blocks in bytes -/
def bsz (v6 : Bool) (bs : List Block) : Nat := ((bs.map (blockBytes v6 false)).flatten).length

theorem bsz_append (v6 : Bool) (a b : List Block) : bsz v6 (a ++ b) = bsz v6 a + bsz v6 b := by
  simp [bsz]

theorem bsz_one (v6 : Bool) (b : Block) (hb : ∀ n ∈ b.nbs, n.addr.length = ipsize v6) :
    bsz v6 [b] = 4 + b.nbs.length * ipsize v6 := by
  simp only [bsz, List.map_cons, List.map_nil, List.flatten_cons, List.flatten_nil, List.append_nil]
  rw [blockBytes_length v6 false b hb]
  rfl

theorem bsz_zero (v6 : Bool) (bs : List Block) (h : bsz v6 bs = 0) : bs = [] := by
  cases bs with
  | nil => rfl
  | cons b bs =>
    exfalso
    have e : b :: bs = [b] ++ bs := rfl
    rw [e, bsz_append] at h
    have : 4 ≤ bsz v6 [b] := by
      simp [bsz, blockBytes, TcPkt.be16]
    omega

theorem bytesR_length (v6 : Bool) (h : Head) (seq : Nat) (bs : List Block) (ho : h.orig.length = ipsize v6) :
    (bytes v6 false h seq bs).length = off v6 + bsz v6 bs := by
  rw [off_eq]
  simp only [bytes, bsz, TcPkt.be16, List.length_append, List.length_cons, List.length_nil, ho]
  omega

/-- what holds between two neighbours -/
structure Inv (v6 : Bool) (g : Gen) : Prop where
  rem : g.rem = left g.out
  pend : g.out.pend ≤ g.out.max
  good : ∀ b ∈ g.blocks, Good v6 b
  fits : off v6 + bsz v6 g.blocks ≤ g.rem
  seq : g.seq < 65536

/-- the progress of the generator: the blocks sent in complete messages in between -/
structure Prog (v6 : Bool) (h : Head) (g g' : Gen) (chs : List (List Block)) (ns : List Nb) : Prop where
  max : g'.out.max = g.out.max
  msgs : g'.out.msgs = g.out.msgs ++ sealedR v6 h g.seq chs
  seq : g'.seq = (g.seq + chs.length) % 65536
  cont : content chs.flatten ++ content g'.blocks = content g.blocks ++ ns
  each : ∀ c ∈ chs, c ≠ [] ∧ (∀ b ∈ c, Good v6 b) ∧ off v6 + bsz v6 c ≤ room g.out

theorem Prog.refl {v6 : Bool} {h : Head} {g : Gen} (hs : g.seq < 65536) : Prog v6 h g g [] [] where
  max := rfl
  msgs := by simp [sealedR]
  seq := by simp; omega
  cont := by simp [content]
  each := fun _ hc => by cases hc

theorem Prog.trans {v6 : Bool} {h : Head} {g g' g'' : Gen} {cs ds : List (List Block)} {ns ms : List Nb} (hs : g.seq < 65536)
    (h1 : Prog v6 h g g' cs ns) (h2 : Prog v6 h g' g'' ds ms) : Prog v6 h g g'' (cs ++ ds) (ns ++ ms) where
  max := by rw [h2.max, h1.max]
  msgs := by rw [h2.msgs, h1.msgs, sealedR_append _ _ _ _ _ hs, h1.seq, List.append_assoc]
  seq := by rw [h2.seq, h1.seq, List.length_append]; omega
  cont := by
    rw [List.flatten_append, content_append, List.append_assoc, h2.cont, ← List.append_assoc, h1.cont, List.append_assoc]
  each := by
    intro c hc
    rcases List.mem_append.1 hc with hc | hc
    · exact h1.each c hc
    · have := h2.each c hc
      refine ⟨this.1, this.2.1, ?_⟩
      have hr : room g'.out = room g.out := by unfold room; rw [h1.max]
      rw [← hr]; exact this.2.2

/-- the last block has the given code -/
def LastCode (g : Gen) (code : Nat) : Prop := ∃ bs b, g.blocks = bs ++ [b] ∧ b.code = code

/-- writing a neighbour for which there is room -/
theorem put_ok {v6 : Bool} {h : Head} {code : Nat} {first : Bool} {g : Gen} {n : Nb} (hi : Inv v6 g)
    (hn : Suits v6 code n) (hl : first = false → LastCode g code)
    (hr : off v6 + bsz v6 g.blocks + ipsize v6 + (if first then 4 else 0) ≤ g.rem) :
    Inv v6 (put code first g n) ∧ Prog v6 h g (put code first g n) [] [n] ∧ LastCode (put code first g n) code := by
  have hg1 : ∀ m ∈ [n], m.addr.length = ipsize v6 := by
    intro m hm; simp at hm; rw [hm]; exact hn.1
  have hgood1 : Good v6 { code := code, nbs := [n] } := by
    refine ⟨by simp, ?_⟩
    intro m hm; simp at hm; rw [hm]; exact hn
  have hb1 := bsz_one v6 { code := code, nbs := [n] } hg1
  simp only [List.length_cons, List.length_nil, Nat.zero_add, Nat.one_mul] at hb1
  have hseq := hi.seq
  cases first with
  | true =>
    simp only [if_true] at hr
    have e : put code true g n = { g with blocks := g.blocks ++ [{ code := code, nbs := [n] }] } := rfl
    rw [e]
    refine ⟨⟨hi.rem, hi.pend, ?_, ?_, hi.seq⟩, ⟨rfl, by simp [sealedR], by simp; omega, by simp [content], (fun c hc => (by cases hc))⟩, _, _, rfl, rfl⟩
    · intro b hb
      rcases List.mem_append.1 hb with hb | hb
      · exact hi.good b hb
      · simp at hb; rw [hb]; exact hgood1
    · show off v6 + bsz v6 (g.blocks ++ [{ code := code, nbs := [n] }]) ≤ g.rem
      rw [bsz_append, hb1]; omega
  | false =>
    obtain ⟨bs, b, hbs, hbc⟩ := hl rfl
    have hgb := hi.good b (by rw [hbs]; simp)
    have happ := append_last n bs b
    rw [← hbs] at happ
    have hba : ∀ m ∈ b.nbs, m.addr.length = ipsize v6 := fun m hm => (hgb.2 m hm).1
    have hba' : ∀ m ∈ b.nbs ++ [n], m.addr.length = ipsize v6 := by
      intro m hm
      rcases List.mem_append.1 hm with hm | hm
      · exact hba m hm
      · exact hg1 m hm
    have e : put code false g n = { g with blocks := bs ++ [{ b with nbs := b.nbs ++ [n] }] } := by
      unfold put; rw [happ]; rfl
    rw [e]
    refine ⟨⟨hi.rem, hi.pend, ?_, ?_, hi.seq⟩, ⟨rfl, by simp [sealedR], by simp; omega, by simp [content, hbs], (fun c hc => (by cases hc))⟩, _, _, rfl, hbc⟩
    · intro c hc
      rcases List.mem_append.1 hc with hc | hc
      · exact hi.good c (by rw [hbs]; exact List.mem_append.2 (Or.inl hc))
      · simp at hc
        rw [hc]
        refine ⟨by simp, ?_⟩
        intro m hm
        rcases List.mem_append.1 hm with hm | hm
        · exact hgb.2 m hm
        · simp at hm; rw [hm, hbc]; exact hn
    · show off v6 + bsz v6 (bs ++ [{ b with nbs := b.nbs ++ [n] }]) ≤ g.rem
      rw [hbs, bsz_append, bsz_one v6 _ hba] at hr
      rw [bsz_append, bsz_one v6 _ hba']
      show off v6 + (bsz v6 bs + (4 + (b.nbs ++ [n]).length * ipsize v6)) ≤ g.rem
      rw [List.length_append, List.length_singleton, Nat.add_mul, Nat.one_mul]
      simp at hr
      omega

theorem addNb_ok {v6 : Bool} {h : Head} {code : Nat} {first : Bool} {g : Gen} {n : Nb} (hi : Inv v6 g)
    (ho : h.orig.length = ipsize v6) (hn : Suits v6 code n) (hl : first = false → LastCode g code)
    (hroom : off v6 + 4 + ipsize v6 ≤ room g.out) :
    ∃ g' chs, addNb v6 h code first g n = some g' ∧ Inv v6 g' ∧ Prog v6 h g g' chs [n] ∧ LastCode g' code := by
  have hsz : curr v6 g = off v6 + bsz v6 g.blocks := rfl
  by_cases hbig : curr v6 g + ipsize v6 + (if first then 4 else 0) > g.rem
  · have hfit := hi.fits
    have hlm : left g.out ≤ g.out.max - g.out.pend := by unfold BuildMsg.left; split <;> omega
    have hpend := hi.pend
    have hrem := hi.rem
    have hseq := hi.seq
    -- the state after the flush
    obtain ⟨g1, hG⟩ : ∃ g1, g1 = flush v6 h g := ⟨_, rfl⟩
    have hprog : g1.blocks = [] ∧ ∃ chs, g1.out.max = g.out.max ∧ g1.out.msgs = g.out.msgs ++ sealedR v6 h g.seq chs ∧
        g1.seq = (g.seq + chs.length) % 65536 ∧ content chs.flatten = content g.blocks ∧
        (∀ c ∈ chs, c ≠ [] ∧ (∀ b ∈ c, Good v6 b) ∧ off v6 + bsz v6 c ≤ room g.out) := by
      by_cases hc : curr v6 g > off v6
      · have hbl := bytesR_length v6 h g.seq g.blocks ho
        have hpush : push g.out (bytes v6 false h g.seq g.blocks) = { g.out with pend := g.out.pend + (bytes v6 false h g.seq g.blocks).length, msgs := g.out.msgs ++ [bytes v6 false h g.seq g.blocks] } := by
          unfold push
          rw [if_neg (by rw [hbl]; omega)]
        have e : g1 = { g with out := push g.out (bytes v6 false h g.seq g.blocks), blocks := [], seq := (g.seq + 1) % 65536 } := by
          rw [hG, flush, if_pos hc]
        refine ⟨by rw [e], [g.blocks], ?_, ?_, ?_, ?_, ?_⟩
        · rw [e, hpush]
        · rw [e, hpush]; simp [sealedR]
        · rw [e]; rfl
        · simp
        · intro c hc'
          simp at hc'
          rw [hc']
          refine ⟨?_, hi.good, ?_⟩
          · intro h0
            rw [hsz, h0] at hc
            have : bsz v6 [] = 0 := rfl
            omega
          · have := left_le_room g.out
            omega
      · have e : g1 = g := by rw [hG, flush, if_neg hc]
        have hb0 : g.blocks = [] := bsz_zero v6 g.blocks (by omega)
        rw [e]
        refine ⟨hb0, [], rfl, by simp [sealedR], by simp; omega, by rw [hb0]; rfl, (fun c hc => (by cases hc))⟩
    obtain ⟨hb0, chs, q1, q2, q3, q4, q5⟩ := hprog
    have hroom1 : room g1.out = room g.out := by unfold room; rw [q1]
    obtain ⟨g2, hG2⟩ : ∃ g2 : Gen, g2 = { g1 with out := output g1.out, rem := left (output g1.out) } := ⟨_, rfl⟩
    have hrem2 : g2.rem = room g.out := by rw [hG2]; show left (output g1.out) = _; rw [left_output, hroom1]
    have hb2 : g2.blocks = [] := by rw [hG2]; exact hb0
    have hi2 : Inv v6 g2 := by
      refine ⟨by rw [hG2], by rw [hG2]; show 0 ≤ _; omega, (by rw [hb2]; intro b hb; cases hb), ?_, ?_⟩
      · rw [hb2, hrem2]
        show off v6 + 0 ≤ _
        omega
      · rw [hG2]; show g1.seq < _; rw [q3]; exact Nat.mod_lt _ (by omega)
    have hf : (first || decide (curr v6 g > off v6)) = true := by
      cases hfirst : first with
      | true => rfl
      | false =>
        obtain ⟨bs, b, hbs, -⟩ := hl hfirst
        have : ¬ bsz v6 g.blocks = 0 := by
          intro h0
          have := bsz_zero v6 _ h0
          rw [hbs] at this; simp at this
        simp only [Bool.false_or, decide_eq_true_eq]
        omega
    have hput := put_ok (h := h) (first := true) hi2 hn (fun hc => by cases hc) (by
      rw [hb2, hrem2]
      show off v6 + 0 + ipsize v6 + 4 ≤ _
      omega)
    refine ⟨put code true g2 n, chs, ?_, hput.1, ?_, hput.2.2⟩
    · unfold addNb
      rw [if_pos hbig, ← hG, if_neg, hf, ← hG2]
      have : curr v6 g1 = off v6 := by unfold curr; rw [hb0]; rfl
      rw [this, left_output, hroom1]
      omega
    · have hp1 : Prog v6 h g g2 chs [] := by
        refine ⟨by rw [hG2]; exact q1, by rw [hG2]; exact q2, by rw [hG2]; exact q3, ?_, q5⟩
        rw [hb2, q4]; rfl
      have := hp1.trans hseq hput.2.1
      rw [List.append_nil, List.nil_append] at this
      exact this
  · have hput := put_ok (h := h) (first := first) hi hn hl (by rw [hsz] at hbig; omega)
    refine ⟨put code first g n, [], ?_, hput.1, hput.2.1, hput.2.2⟩
    unfold addNb
    rw [if_neg hbig]

theorem addGroup_ok {v6 : Bool} {h : Head} {code : Nat} (ho : h.orig.length = ipsize v6) (ns : List Nb) :
    ∀ (g : Gen) (first : Bool), (∀ n ∈ ns, Suits v6 code n) → Inv v6 g → (first = false → LastCode g code) →
    off v6 + 4 + ipsize v6 ≤ room g.out →
    ∃ g' chs, addGroup v6 h code first g ns = some g' ∧ Inv v6 g' ∧ Prog v6 h g g' chs ns := by
  induction ns with
  | nil =>
    intro g first _ hi _ _
    exact ⟨g, [], by cases first <;> rfl, hi, Prog.refl hi.seq⟩
  | cons n ns ih =>
    intro g first hs hi hl hr
    obtain ⟨g1, c1, e1, i1, p1, l1⟩ := addNb_ok (first := first) hi ho (hs n (List.mem_cons_self ..)) hl hr
    have hroom : room g1.out = room g.out := by unfold room; rw [p1.max]
    obtain ⟨g2, c2, e2, i2, p2⟩ := ih g1 false (fun m hm => hs m (List.mem_cons_of_mem _ hm)) i1 (fun _ => l1)
      (by rw [hroom]; exact hr)
    refine ⟨g2, c1 ++ c2, ?_, i2, p1.trans hi.seq p2⟩
    rw [addGroup, e1]; exact e2

theorem addKinds_ok {v6 : Bool} {h : Head} (ho : h.orig.length = ipsize v6) (ns : List Nb)
    (hn : ∀ n ∈ ns, n.addr.length = ipsize v6) (ks : List (Nat × Nat)) :
    ∀ g : Gen, Inv v6 g → off v6 + 4 + ipsize v6 ≤ room g.out →
    ∃ g' chs, addKinds v6 h ns g ks = some g' ∧ Inv v6 g' ∧ Prog v6 h g g' chs (ks.flatMap (Hello.group ns)) := by
  induction ks with
  | nil =>
    intro g hi _
    exact ⟨g, [], rfl, hi, Prog.refl hi.seq⟩
  | cons k ks ih =>
    intro g hi hr
    obtain ⟨g1, c1, e1, i1, p1⟩ := addGroup_ok (code := linkCode k.1 k.2) ho (Hello.group ns k) g true
      (by
        intro n hm
        obtain ⟨h1, h2⟩ := List.mem_filter.1 hm
        simp at h2
        exact ⟨hn n h1, by rw [h2.1, h2.2]⟩)
      hi (fun hc => by cases hc) hr
    have hroom : room g1.out = room g.out := by unfold room; rw [p1.max]
    obtain ⟨g2, c2, e2, i2, p2⟩ := ih g1 i1 (by rw [hroom]; exact hr)
    refine ⟨g2, c1 ++ c2, ?_, i2, ?_⟩
    · rw [addKinds]
      show (match addGroup v6 h (linkCode k.1 k.2) true g (Hello.group ns k) with | none => none | some g' => addKinds v6 h ns g' ks) = _
      rw [e1]; exact e2
    · rw [List.flatMap_cons]; exact p1.trans hi.seq p2

theorem serialize_ok {v6 : Bool} {h : Head} {ns : List Nb} {o : Out} {seq : Nat} (ho : h.orig.length = ipsize v6)
    (hn : ∀ n ∈ ns, n.addr.length = ipsize v6) (hs : seq < 65536) (hp : o.pend ≤ o.max)
    (hr : off v6 + 4 + ipsize v6 ≤ o.max) (hc : v6 = true → left o < off v6 ∨ off v6 + 20 ≤ left o) :
    ∃ (o' : Out) (chs : List (List Block)),
      serialize v6 h ns o seq = some (o', (seq + chs.length) % 65536) ∧
      o'.max = o.max ∧ o'.pend ≤ o'.max ∧ chs ≠ [] ∧
      o'.msgs = o.msgs ++ sealedR v6 h seq chs ∧
      content chs.flatten = (kinds v6).flatMap (Hello.group ns) ∧
      ∀ c ∈ chs, (∀ b ∈ c, Good v6 b) ∧ off v6 + bsz v6 c ≤ room o := by
  have hro : off v6 + 4 + ipsize v6 ≤ room o := by
    unfold room; split
    · cases v6 <;> decide
    · exact hr
  obtain ⟨o1, hO⟩ : ∃ o1, o1 = if off v6 > left o then output o else o := ⟨_, rfl⟩
  have h1 : o1.max = o.max ∧ o1.msgs = o.msgs ∧ o1.pend ≤ o1.max ∧ off v6 + firstCheck v6 ≤ left o1 := by
    by_cases hc' : off v6 > left o
    · rw [if_pos hc'] at hO
      rw [hO]
      refine ⟨rfl, rfl, (by show 0 ≤ _; omega), ?_⟩
      rw [left_output]
      cases v6
      · show _ + 0 ≤ _; omega
      · have e : ipsize true = 16 := rfl
        show _ + 20 ≤ _; omega
    · rw [if_neg hc'] at hO
      rw [hO]
      refine ⟨rfl, rfl, hp, ?_⟩
      cases v6
      · show _ + 0 ≤ _; omega
      · show _ + 20 ≤ _
        rcases hc rfl with h | h <;> omega
  obtain ⟨m1, m2, m3, m4⟩ := h1
  have hroom : room o1 = room o := by unfold room; rw [m1]
  obtain ⟨g, chs, e, i, p⟩ := addKinds_ok ho ns hn (kinds v6) { out := o1, rem := left o1, blocks := [], seq := seq }
    ⟨rfl, m3, (fun _ hb => (by cases hb)), (by show off v6 + 0 ≤ left o1; omega), hs⟩
    (by show _ ≤ room o1; rw [hroom]; exact hro)
  have hfit := i.fits
  have hleft := i.rem
  have hpend := i.pend
  have hlm : left g.out ≤ g.out.max - g.out.pend := by unfold BuildMsg.left; split <;> omega
  have hbl := bytesR_length v6 h g.seq g.blocks ho
  have hpush : push g.out (bytes v6 false h g.seq g.blocks) = { g.out with pend := g.out.pend + (bytes v6 false h g.seq g.blocks).length, msgs := g.out.msgs ++ [bytes v6 false h g.seq g.blocks] } := by
    unfold push
    rw [if_neg (by rw [hbl]; omega)]
  have hgm : g.out.max = o.max := by rw [p.max]; exact m1
  refine ⟨push g.out (bytes v6 false h g.seq g.blocks), chs ++ [g.blocks], ?_, ?_, ?_, by simp, ?_, ?_, ?_⟩
  · unfold serialize
    simp only []
    rw [← hO, if_neg (by omega), e]
    simp only []
    have : (g.seq + 1) % 65536 = (seq + (chs ++ [g.blocks]).length) % 65536 := by
      rw [p.seq, List.length_append, List.length_singleton]
      show ((seq + chs.length) % 65536 + 1) % 65536 = _
      omega
    rw [this]
  · rw [hpush]; exact hgm
  · rw [hpush]
    show g.out.pend + (bytes v6 false h g.seq g.blocks).length ≤ g.out.max
    rw [hbl]; omega
  · rw [hpush, sealedR_append _ _ _ _ _ hs]
    show g.out.msgs ++ _ = _
    rw [p.msgs, p.seq]
    show o1.msgs ++ _ ++ _ = _
    rw [m2, List.append_assoc]
    rfl
  · have := p.cont
    rw [List.flatten_append, content_append]
    simp only [List.flatten_cons, List.flatten_nil, List.append_nil]
    rw [this]; rfl
  · intro c hc
    rcases List.mem_append.1 hc with hc | hc
    · have := p.each c hc
      refine ⟨this.2.1, ?_⟩
      rw [← hroom]; exact this.2.2
    · simp at hc
      rw [hc]
      refine ⟨i.good, ?_⟩
      have h2 := left_le_room g.out
      have h3 : room g.out = room o := by unfold room; rw [hgm]
      omega

theorem kindsR_perm (v6 : Bool) (ns : List Nb) (hst : ∀ n ∈ ns, n.status < 3 ∧ n.link < 5) :
    ((kinds v6).flatMap (Hello.group ns)).Perm (ns.filter (fun n => v6 || decide (n.link < 4))) := by
  have h := partition_perm (fun n : Nb => (n.status, n.link)) (kinds v6) (by cases v6 <;> decide) ns
  have e1 : ((kinds v6).flatMap (fun k => ns.filter (fun x => (x.status, x.link) == k))) = (kinds v6).flatMap (Hello.group ns) := by
    rfl
  have e2 : ns.filter (fun x => (kinds v6).contains (x.status, x.link)) = ns.filter (fun n => v6 || decide (n.link < 4)) := by
    apply List.filter_congr
    intro n hn
    have h1 := hst n hn
    have h2 : n.status = 0 ∨ n.status = 1 ∨ n.status = 2 := by omega
    have h4 : n.link = 0 ∨ n.link = 1 ∨ n.link = 2 ∨ n.link = 3 ∨ n.link = 4 := by omega
    cases v6 <;> rcases h2 with h2 | h2 | h2 <;> rcases h4 with h4 | h4 | h4 | h4 | h4 <;> rw [h2, h4] <;> decide
  rw [← e1, ← e2]
  exact h

end Verif.RfcHello
