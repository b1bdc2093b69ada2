import Verif.BuildMsgLemmas
import Verif.IpcalcProps
import Verif.GwSpeedProps
import Verif.MantissaProps

/-! Properties C17, C18, C66, C67 and C68: MID and HNA messages. -/
namespace Verif.BuildMsg

open Verif

/-! ### C17: MID round trip -/

private theorem parse_sealed {v6 : Bool} {main : List Nat} (vtime : Nat) (hm : main.length = ipsize v6)
    (chs : List (List (List Nat))) : ∀ seq, seq < 65536 →
    (∀ c ∈ chs, (∀ x ∈ c, x.length = ipsize v6) ∧ hdr v6 + c.flatten.length ≤ 1228) →
    ∃ ps : List MidMsg, (sealed 3 vtime main seq chs).map (parseMid v6) = ps.map some ∧
      ps.map (fun p => p.aliases.reverse) = chs ∧
      (∀ p ∈ ps, p.orig = main ∧ p.vtime = vtime) ∧
      (∀ i p, ps[i]? = some p → p.seq = (seq + i) % 65536) := by
  induction chs with
  | nil =>
    intro seq _ _
    refine ⟨[], rfl, rfl, (fun _ h => (by cases h)), (fun i p h => ?_)⟩
    simp at h
  | cons c cs ih =>
    intro seq hs hc
    obtain ⟨ps, h1, h2, h3, h4⟩ := ih ((seq + 1) % 65536) (Nat.mod_lt _ (by omega))
      (fun c hc' => hc c (List.mem_cons_of_mem _ hc'))
    obtain ⟨hk, hl⟩ := hc c (List.mem_cons_self ..)
    have hh := hdr_eq v6
    obtain ⟨f0, f1, f2, f3, f4, f5⟩ := message_fields v6 3 vtime main seq c.flatten hm (by omega) hs
    have hlen : ¬ (message 3 vtime main seq c.flatten).length < hdr v6 := by
      rw [message_length]; omega
    have hfl := flatten_length _ c hk
    have hcount : (hdr v6 + c.flatten.length - 12) / ipsize v6 = c.length := by
      rw [hfl]
      cases v6
      · show (12 + c.length * 4 - 12) / 4 = _
        omega
      · show (24 + c.length * 16 - 12) / 16 = _
        omega
    have hp : parseMid v6 (message 3 vtime main seq c.flatten) =
        some { orig := main, seq := seq, vtime := vtime, aliases := c.reverse } := by
      unfold parseMid
      rw [if_neg hlen, f1, f2, f3, f4, f5, hcount]
      have := takeAddrs_flatten _ c hk []
      rw [List.append_nil] at this
      rw [this]
      rfl
    refine ⟨{ orig := main, seq := seq, vtime := vtime, aliases := c.reverse } :: ps, ?_, ?_, ?_, ?_⟩
    · simp only [sealed, List.map_cons, hp, h1]
    · simp only [List.map_cons, h2, List.reverse_reverse]
    · intro p hp'
      rcases List.mem_cons.1 hp' with rfl | hp'
      · exact ⟨rfl, rfl⟩
      · exact h3 p hp'
    · intro i p hi
      cases i with
      | zero =>
        simp at hi
        rw [← hi]
        show seq = _
        omega
      | succ i =>
        simp at hi
        have := h4 i p hi
        rw [this]; omega

private theorem sealed_lengths {v6 : Bool} {main : List Nat} (ty vtime B : Nat) (hm : main.length = ipsize v6)
    (chs : List (List (List Nat))) : ∀ seq,
    (∀ c ∈ chs, hdr v6 + c.flatten.length ≤ B) → ∀ m ∈ sealed ty vtime main seq chs, m.length ≤ B := by
  induction chs with
  | nil => intro seq _ m hm'; cases hm'
  | cons c cs ih =>
    intro seq h m hm'
    rcases List.mem_cons.1 hm' with rfl | hm'
    · rw [message_length]
      have := h c (List.mem_cons_self ..)
      rw [hdr_eq, ← hm] at this; omega
    · exact ih _ (fun c hc => h c (List.mem_cons_of_mem _ hc)) m hm'

private theorem sealed_vtime (ty vtime : Nat) (main : List Nat) (chs : List (List (List Nat))) : ∀ seq,
    ∀ m ∈ sealed ty vtime main seq chs, m.getD 1 0 = vtime := by
  induction chs with
  | nil => intro seq m hm'; cases hm'
  | cons c cs ih =>
    intro seq m hm'
    rcases List.mem_cons.1 hm' with rfl | hm'
    · rfl
    · exact ih _ m hm'

private theorem room_le (o : Out) : room o ≤ 1228 ∧ room o ≤ o.max := by
  unfold room; split <;> omega

/-- **C17 (partial).**  Full claim: parsing the MID messages a node generates yields exactly its interface
addresses other than its main address, and its main address, in every message.  Proved for both address families, for
every list of interfaces, every state of the output buffer and every sequence number, provided an empty output
buffer has room for a message with one address.  The messages carry consecutive sequence numbers, every one of
them has at least one address and fits the buffer.  Missing: in IPv4 a smaller buffer loses addresses
(`C17_small_buffer_loses`); a node with exactly 8191 interfaces (or 8192 more, ...) is left out, see
`C18_8191_entries_exit`. -/
theorem C17_roundtrip_partial (v6 : Bool) (vtime : Nat) (main : List Nat) (ifs : List (List Nat)) (o : Out) (seq : Nat)
    (hm : main.length = ipsize v6) (hi : ∀ a ∈ ifs, a.length = ipsize v6) (hs : seq < 65536)
    (hp : o.pend ≤ o.max) (hroom : hdr v6 + ipsize v6 ≤ o.max) (hn : v6 = true ∨ ifs.length % 8192 ≠ 8191) :
    ∃ o' seq' ms, ∃ ps : List MidMsg, mid v6 vtime main ifs o seq = .ok (o', seq') ∧ o'.msgs = o.msgs ++ ms ∧
      ms.map (parseMid v6) = ps.map some ∧
      (ps.map (fun p => p.aliases.reverse)).flatten = ifs.filter (fun a => a != main) ∧
      (∀ p ∈ ps, p.orig = main ∧ p.vtime = vtime ∧ p.aliases ≠ []) ∧
      (∀ i p, ps[i]? = some p → p.seq = (seq + i) % 65536) ∧
      (∀ m ∈ ms, m.length ≤ 1228 ∧ m.length ≤ o.max) := by
  by_cases h0 : ifs = [] ∨ ifs = [main]
  · refine ⟨o, seq, [], [], ?_, ?_, rfl, ?_, (fun _ h => (by cases h)), (fun i p h => ?_), (fun _ h => (by cases h))⟩
    · unfold mid; rw [if_pos h0]
    · simp
    · rcases h0 with h0 | h0 <;> simp [h0]
    · simp at h
  · have hk : 0 < ipsize v6 := by cases v6 <;> decide
    have hr : hdr v6 + ipsize v6 ≤ room o := by
      unfold room; split
      · cases v6 <;> decide
      · omega
    obtain ⟨g, g', chs, s1, s2, s3, s4, s5, s6, s7, s8, s9, s10, s11, s12, -⟩ :=
      groups_ok 3 vtime (if v6 then 16 else 0) (ipsize v6) ifs.length seq o (ifs.filter (fun a => a != main)) hm hk
        (by cases v6 <;> decide) (fun x hx => hi x (List.mem_filter.1 hx).1) hp hn hr hs
    have hrl := room_le o
    have hmem : ∀ (L : List (List (List Nat))), L.flatten = ifs.filter (fun a => a != main) → ∀ c ∈ L, ∀ x ∈ c, x.length = ipsize v6 := by
      intro L hL c hc x hx
      have : x ∈ L.flatten := List.mem_flatten.2 ⟨c, hc, hx⟩
      rw [hL] at this
      exact hi x (List.mem_filter.1 this).1
    by_cases hc : g'.cur = []
    · have hcs : ¬ currSize v6 g' > hdr v6 := by rw [s12]; exact fun h => h hc
      have hcf : chs.flatten = ifs.filter (fun a => a != main) := by rw [← s8, hc, List.append_nil]
      obtain ⟨ps, p1, p2, p3, p4⟩ := parse_sealed vtime hm chs seq hs
        (fun c hc' => ⟨hmem chs hcf c hc', by have := s10 c (List.mem_append.2 (Or.inl hc')); omega⟩)
      refine ⟨g'.out, (g'.seq + 1) % 65536, _, ps, ?_, s4, p1, ?_, ?_, p4, ?_⟩
      · unfold mid
        rw [if_neg h0, s1]
        simp only [s2]
        rw [if_neg hcs]
      · rw [p2, hcf]
      · intro p hp'
        refine ⟨(p3 p hp').1, (p3 p hp').2, ?_⟩
        have : p.aliases.reverse ∈ chs := by rw [← p2]; exact List.mem_map.2 ⟨p, hp', rfl⟩
        have := s11 _ this
        intro hnil; rw [hnil] at this; exact this rfl
      · intro m hm'
        have := sealed_lengths 3 vtime (room o) hm chs seq (fun c hc' => s10 c (List.mem_append.2 (Or.inl hc'))) m hm'
        omega
    · have hcs : currSize v6 g' > hdr v6 := by rw [s12]; exact hc
      have hcf : (chs ++ [g'.cur]).flatten = ifs.filter (fun a => a != main) := by rw [← s8]; simp
      obtain ⟨ps, p1, p2, p3, p4⟩ := parse_sealed vtime hm (chs ++ [g'.cur]) seq hs
        (fun c hc' => ⟨hmem _ hcf c hc', by have := s10 c hc'; omega⟩)
      refine ⟨(emit 3 vtime main g').out, (g'.seq + 1) % 65536, _, ps, ?_, s5, p1, ?_, ?_, p4, ?_⟩
      · unfold mid
        rw [if_neg h0, s1]
        simp only [s2]
        rw [if_pos hcs]
      · rw [p2, hcf]
      · intro p hp'
        refine ⟨(p3 p hp').1, (p3 p hp').2, ?_⟩
        have hin : p.aliases.reverse ∈ chs ++ [g'.cur] := by rw [← p2]; exact List.mem_map.2 ⟨p, hp', rfl⟩
        intro hnil
        rw [hnil] at hin
        rcases List.mem_append.1 hin with hin | hin
        · exact s11 _ hin rfl
        · simp at hin; exact hc hin
      · intro m hm'
        have := sealed_lengths 3 vtime (room o) hm _ seq s10 m hm'
        omega

/-- a node with three interfaces, the first one with the main address, and a buffer of 50 bytes that holds 40 -/
def exMid : Res (Out × Nat) :=
  mid false 0x86 [10, 0, 0, 1] [[10, 0, 0, 1], [10, 0, 1, 1], [10, 0, 2, 1]] { max := 50, pend := 40, msgs := [] } 65535

example : exMid = .ok (⟨50, 20, [[3, 0x86, 0, 20, 10, 0, 0, 1, 255, 0, 255, 255, 10, 0, 1, 1, 10, 0, 2, 1]]⟩, 0) := by decide

/-- and with room for one address only: two messages -/
example : mid false 0x86 [10, 0, 0, 1] [[10, 0, 0, 1], [10, 0, 1, 1], [10, 0, 2, 1]]
      { max := 19, pend := 0, msgs := [] } 7 = .ok (⟨19, 16, [[3, 0x86, 0, 16, 10, 0, 0, 1, 255, 0, 0, 7, 10, 0, 1, 1],
             [3, 0x86, 0, 16, 10, 0, 0, 1, 255, 0, 0, 8, 10, 0, 2, 1]]⟩, 9) := by decide

/-- **C17 without the room is false**: in IPv4 the second check asks only for the header, so with a buffer of 12 to
15 bytes every address is lost without a word. -/
theorem C17_small_buffer_loses :
    mid false 0x86 [10, 0, 0, 1] [[10, 0, 0, 1], [10, 0, 1, 1], [10, 0, 2, 1]] { max := 15, pend := 0, msgs := [] } 7 =
      .ok ({ max := 15, pend := 0, msgs := [] }, 9) := by decide

/-! ### C66: reading within the message -/

/-- **C66, IPv4 MID**: no read past the end of a message whose announced size is its length. -/
theorem C66_mid4 (m : List Nat) (h : 12 ≤ m.length) (hs : rd16 (m.getD 2 0) (m.getD 3 0) = m.length) :
    parseMid false m ≠ none := by
  unfold parseMid
  rw [if_neg (show ¬ m.length < hdr false from by show ¬ m.length < 12; omega), hs]
  have hx : takeAddrs (ipsize false) ((m.length - 12) / ipsize false) (m.drop (hdr false)) ≠ none := by
    rw [takeAddrs_isSome, List.length_drop]
    show (m.length - 12) / 4 * 4 ≤ m.length - 12
    omega
  intro hn
  cases he : takeAddrs (ipsize false) ((m.length - 12) / ipsize false) (m.drop (hdr false)) with
  | none => exact hx he
  | some r => rw [he] at hn; cases hn

/-- **C66 (partial), IPv6 MID.**  Full claim: as for IPv4.  The number of addresses is computed from the size less 12 instead of 24,
so the read stays inside exactly when the part after the last whole address has less than 4 bytes; sizes are
multiples of 4 (checked by the parser), hence exactly when there is no such part. -/
theorem C66_mid6_partial (m : List Nat) (h : 24 ≤ m.length) (hs : rd16 (m.getD 2 0) (m.getD 3 0) = m.length) :
    parseMid true m ≠ none ↔ (m.length - 24) % 16 < 4 := by
  unfold parseMid
  rw [if_neg (show ¬ m.length < hdr true from by show ¬ m.length < 24; omega), hs]
  have hx : takeAddrs (ipsize true) ((m.length - 12) / ipsize true) (m.drop (hdr true)) ≠ none ↔ (m.length - 24) % 16 < 4 := by
    rw [takeAddrs_isSome, List.length_drop]
    show (m.length - 12) / 16 * 16 ≤ m.length - 24 ↔ _
    omega
  rw [← hx]
  cases he : takeAddrs (ipsize true) ((m.length - 12) / ipsize true) (m.drop (hdr true)) with
  | none => simp
  | some r => simp

/-- **C66 is false for IPv6 MID**: a message of 28 bytes, four of them after the header, is read as one address of
16 bytes, 12 of them from what follows the message. -/
theorem C66_mid6_overreads :
    parseMid true ([3, 0x86, 0, 28] ++ List.replicate 16 1 ++ [255, 0, 0, 7] ++ [1, 2, 3, 4]) = none := by decide

private theorem hnaLoop_ok (v6 : Bool) (r : Rx) (fuel : Nat) : ∀ l : List Nat, l.length ≤ fuel →
    l.length % (2 * ipsize v6) = 0 → hnaLoop v6 r fuel l ≠ none := by
  have hk : 0 < ipsize v6 := by cases v6 <;> decide
  induction fuel with
  | zero =>
    intro l hl _
    cases l with
    | nil => simp [hnaLoop]
    | cons => simp at hl
  | succ f ih =>
    intro l hl hmod
    cases l with
    | nil => simp [hnaLoop]
    | cons x xs =>
      rw [hnaLoop]
      · have hge : ¬ (x :: xs).length < 2 * ipsize v6 := by
          intro hlt
          rw [Nat.mod_eq_of_lt hlt] at hmod
          simp at hmod
        rw [if_neg hge]
        have hd : ((x :: xs).drop (2 * ipsize v6)).length = (x :: xs).length - 2 * ipsize v6 := List.length_drop ..
        have := ih ((x :: xs).drop (2 * ipsize v6)) (by omega)
          (by rw [hd, ← Nat.mod_eq_sub_mod (by omega)]; exact hmod)
        intro hn
        cases he : hnaLoop v6 r f ((x :: xs).drop (2 * ipsize v6)) with
        | none => exact this he
        | some q => rw [he] at hn; cases hn
      · intro h; cases h

/-- **C66, HNA**: no read past the end of a message whose announced size is its length, for both address families, any
content, any receiver. -/
theorem C66_hna (v6 : Bool) (r : Rx) (sym : Bool) (m : List Nat) (h : hdr v6 ≤ m.length)
    (hs : rd16 (m.getD 2 0) (m.getD 3 0) = m.length) : inputHna v6 r sym m ≠ none := by
  unfold inputHna
  rw [if_neg (show ¬ m.length < hdr v6 by omega), hs, List.take_length]
  split
  · simp
  · split
    · simp
    · rename_i hmod
      split
      · simp
      · have := hnaLoop_ok v6 r m.length (m.drop (hdr v6)) (by rw [List.length_drop]; omega)
          (by rw [List.length_drop]; exact Classical.byContradiction fun hh => hmod hh)
        intro hn
        cases he : hnaLoop v6 r m.length (m.drop (hdr v6)) with
        | none => exact this he
        | some q => rw [he] at hn; cases hn

/-- a message with one and a half pairs is ignored, one with a pair is processed -/
example : inputHna false ⟨false, [], []⟩ true [4, 0x86, 0, 16, 10, 0, 0, 1, 255, 0, 0, 7, 10, 1, 0, 0] = some none ∧
    inputHna false ⟨false, [], []⟩ true [4, 0x86, 0, 20, 10, 0, 0, 1, 255, 0, 0, 7, 10, 1, 0, 0, 255, 255, 0, 0] =
      some (some ([10, 0, 0, 1], [.update [10, 1, 0, 0] 16])) := by decide

/-! ### C18: HNA round trip -/

/-- The entries as they come out at a receiver that has none of them itself. -/
def Foreign (r : Rx) (es : List (List Nat × Nat)) : Prop :=
  ∀ e ∈ es, ¬ e.1 ∈ r.ifs ∧ ¬ e ∈ r.own

private theorem hnaLoop_items (v6 : Bool) (r : Rx) (ps : List (List Nat × List Nat))
    (h : ∀ p ∈ ps, p.1.length = ipsize v6 ∧ p.2.length = ipsize v6) :
    ∀ fuel, ps.length ≤ fuel →
    hnaLoop v6 r fuel (ps.map (fun p => p.1 ++ p.2)).flatten = some (ps.map (fun p => hnaPair v6 r p.1 p.2)) := by
  have hk : 0 < ipsize v6 := by cases v6 <;> decide
  induction ps with
  | nil => intro fuel _; cases fuel <;> rfl
  | cons p ps ih =>
    intro fuel hf
    cases fuel with
    | zero => simp at hf
    | succ f =>
      obtain ⟨h1, h2⟩ := h p (List.mem_cons_self ..)
      have ih := ih (fun q hq => h q (List.mem_cons_of_mem _ hq)) f (by simp at hf; omega)
      rw [List.map_cons, List.flatten_cons]
      have hne : p.1 ++ p.2 ++ (ps.map (fun p => p.1 ++ p.2)).flatten ≠ [] := by
        intro hh
        have := congrArg List.length hh
        simp only [List.length_append, List.length_nil] at this
        omega
      obtain ⟨l, hl⟩ : ∃ l, p.1 ++ p.2 ++ (ps.map (fun p => p.1 ++ p.2)).flatten = l := ⟨_, rfl⟩
      have hlen : ¬ l.length < 2 * ipsize v6 := by
        rw [← hl]; simp only [List.length_append]; omega
      have hd : l.drop (2 * ipsize v6) = (ps.map (fun p => p.1 ++ p.2)).flatten := by
        rw [← hl]
        have : 2 * ipsize v6 = (p.1 ++ p.2).length := by rw [List.length_append]; omega
        rw [this, List.drop_left]
      have ht : l.take (ipsize v6) = p.1 := by
        rw [← hl, List.append_assoc, ← h1, List.take_left]
      have ht2 : (l.drop (ipsize v6)).take (ipsize v6) = p.2 := by
        rw [← hl, List.append_assoc]
        have : (p.1 ++ (p.2 ++ (ps.map (fun p => p.1 ++ p.2)).flatten)).drop (ipsize v6) =
            p.2 ++ (ps.map (fun p => p.1 ++ p.2)).flatten := by rw [← h1, List.drop_left]
        rw [this, ← h2, List.take_left]
      rw [hl]
      rw [hl] at hne
      cases l with
      | nil => exact absurd rfl hne
      | cons x xs =>
        rw [hnaLoop]
        · rw [if_neg hlen, hd, ht, ht2, ih]
          rfl
        · intro hh; cases hh

/-- the events of the messages made of the given groups of pairs -/
private theorem input_sealed {v6 : Bool} {main : List Nat} (r : Rx) (vtime : Nat) (hm : main.length = ipsize v6)
    (chs : List (List (List Nat × List Nat))) : ∀ seq, seq < 65536 →
    (∀ c ∈ chs, (∀ x ∈ c, x.1.length = ipsize v6 ∧ x.2.length = ipsize v6) ∧
      hdr v6 + (c.map (fun p => p.1 ++ p.2)).flatten.length ≤ 1228) →
    (sealed 4 vtime main seq (chs.map (fun c => c.map (fun p => p.1 ++ p.2)))).map (inputHna v6 r true) =
      chs.map (fun c => some (some (main, c.map (fun p => hnaPair v6 r p.1 p.2)))) := by
  have hk : 0 < ipsize v6 := by cases v6 <;> decide
  induction chs with
  | nil => intro seq _ _; rfl
  | cons c cs ih =>
    intro seq hs hc
    have ih := ih ((seq + 1) % 65536) (Nat.mod_lt _ (by omega)) (fun c hc' => hc c (List.mem_cons_of_mem _ hc'))
    obtain ⟨hl, hb⟩ := hc c (List.mem_cons_self ..)
    have hh := hdr_eq v6
    obtain ⟨f0, f1, f2, f3, f4, f5⟩ := message_fields v6 4 vtime main seq (c.map (fun p => p.1 ++ p.2)).flatten hm (by omega) hs
    have hlen := message_length 4 vtime main seq (c.map (fun p => p.1 ++ p.2)).flatten
    have hfl := flatten_length (2 * ipsize v6) (c.map (fun p => p.1 ++ p.2)) (by
      intro x hx
      obtain ⟨p, hp, rfl⟩ := List.mem_map.1 hx
      have := hl p hp
      rw [List.length_append]; omega)
    rw [List.length_map] at hfl
    have hin : inputHna v6 r true (message 4 vtime main seq (c.map (fun p => p.1 ++ p.2)).flatten) =
        some (some (main, c.map (fun p => hnaPair v6 r p.1 p.2))) := by
      unfold inputHna
      rw [if_neg (by rw [hlen]; omega), f0, f2, f3]
      rw [if_neg (by simp)]
      rw [if_neg (by rw [Nat.add_sub_cancel_left, hfl]; simp)]
      rw [if_neg (by simp)]
      have ht : (message 4 vtime main seq (c.map (fun p => p.1 ++ p.2)).flatten).take
          (hdr v6 + (c.map (fun p => p.1 ++ p.2)).flatten.length) =
          message 4 vtime main seq (c.map (fun p => p.1 ++ p.2)).flatten :=
        List.take_of_length_le (by rw [hlen]; omega)
      rw [ht, f5, hnaLoop_items v6 r c hl _ (by
        rw [hlen, hfl]
        have : c.length * 1 ≤ c.length * (2 * ipsize v6) := Nat.mul_le_mul_left _ (by omega)
        omega)]
      rfl
    simp only [List.map_cons, sealed, hin, ih]

/-- what a list of entries becomes -/
private theorem hnaList_ok (c : Cfg) (junk : List Nat) (vtime : Nat) (zero : Bool) (es : List (List Nat × Nat)) (o : Out)
    (seq : Nat) (is : List ((List Nat × List Nat) × Bool))
    (hi : hnaItems c junk zero es = .ok (is.map (fun i => (i.1.1 ++ i.1.2, i.2))))
    (hl : ∀ i ∈ is, i.1.1.length = ipsize c.v6 ∧ i.1.2.length = ipsize c.v6)
    (hm : c.main.length = ipsize c.v6) (hs : seq < 65536) (hp : o.pend ≤ o.max)
    (hroom : hdr c.v6 + 2 * ipsize c.v6 ≤ o.max) (hn : c.v6 = true ∨ es.length % 8192 ≠ 8191) (r : Rx) :
    ∃ o' seq' ms, ∃ evs : List (List Ev), hnaList c junk vtime zero es o seq = .ok (o', seq', is.any Prod.snd) ∧ seq' < 65536 ∧
      o'.msgs = o.msgs ++ ms ∧ o'.max = o.max ∧ o'.pend ≤ o'.max ∧
      ms.map (inputHna c.v6 r true) = evs.map (fun e => some (some (c.main, e))) ∧
      evs.flatten = is.map (fun i => hnaPair c.v6 r i.1.1 i.1.2) ∧ (is ≠ [] → ∀ e ∈ evs, e ≠ []) ∧
      (is.length ≤ 1 → ms.length = 1) ∧
      (∀ m ∈ ms, m.length ≤ 1228 ∧ m.length ≤ o.max ∧ m.getD 1 0 = vtime) := by
  have hk : 0 < ipsize c.v6 := by cases c.v6 <;> decide
  have hr : hdr c.v6 + 2 * ipsize c.v6 ≤ room o := by
    unfold room; split
    · cases c.v6 <;> decide
    · omega
  have hbytes : ∀ x ∈ (is.map (fun i => (i.1.1 ++ i.1.2, i.2))).map Prod.fst, x.length = 2 * ipsize c.v6 := by
    intro x hx
    rw [List.map_map] at hx
    obtain ⟨i, hi', rfl⟩ := List.mem_map.1 hx
    have := hl i hi'
    simp only [Function.comp, List.length_append]; omega
  obtain ⟨g, g', chs, s1, s2, s3, s4, s5, s6, s7, s8, s9, s10, s11, s12, s13⟩ :=
    groups_ok 4 vtime (2 * ipsize c.v6) (2 * ipsize c.v6) es.length seq o _ hm (by omega) (Nat.le_refl _)
      hbytes hp hn hr hs
  have hrl := room_le o
  have hflat : (chs ++ [g'.cur]).flatten = (is.map Prod.fst).map (fun p : List Nat × List Nat => p.1 ++ p.2) := by
    rw [List.flatten_append, List.flatten_cons, List.flatten_nil, List.append_nil, s8, List.map_map, List.map_map]
    rfl
  obtain ⟨L, hL1, hL2⟩ := unflatten _ _ _ hflat
  have hev := input_sealed r vtime hm L seq hs (by
    intro ch hch
    constructor
    · intro x hx
      have : x ∈ is.map Prod.fst := by rw [← hL2]; exact List.mem_flatten.2 ⟨ch, hch, hx⟩
      obtain ⟨i, hi', rfl⟩ := List.mem_map.1 this
      exact hl i hi'
    · have := s10 (ch.map (fun p => p.1 ++ p.2)) (by rw [hL1]; exact List.mem_map.2 ⟨ch, hch, rfl⟩)
      omega)
  rw [← hL1] at hev
  refine ⟨(emit 4 vtime c.main g').out, (g'.seq + 1) % 65536, sealed 4 vtime c.main seq (chs ++ [g'.cur]),
    L.map (fun c' => c'.map (fun p => hnaPair c.v6 r p.1 p.2)), ?_, Nat.mod_lt _ (by omega), s5, s7, ?_, ?_, ?_, ?_, ?_, ?_⟩
  · unfold hnaList
    simp only [s1, hi, s2]
    rw [List.any_map]
    rfl
  · rw [s7]; exact s13
  · rw [hev, List.map_map]; rfl
  · rw [← List.map_flatten, hL2, List.map_map]; rfl
  · intro hne e he hnil
    obtain ⟨ch, hch, rfl⟩ := List.mem_map.1 he
    have hch0 : ch = [] := by simpa using hnil
    have hmem : ([] : List (List Nat)) ∈ chs ++ [g'.cur] := by
      rw [hL1]; exact List.mem_map.2 ⟨ch, hch, by rw [hch0]; rfl⟩
    rcases List.mem_append.1 hmem with h | h
    · exact s11 _ h rfl
    · have hcur : g'.cur = [] := by simp at h; exact h
      have := s9 hcur
      rw [List.map_map] at this
      exact hne (by simpa using this)
  · intro h1
    have hc0 : chs = [] := by
      cases hch : chs with
      | nil => rfl
      | cons y ys =>
        exfalso
        have hy := s11 y (by rw [hch]; exact List.mem_cons_self ..)
        have hlen := congrArg List.length s8
        rw [hch, List.flatten_cons] at hlen
        simp only [List.length_append, List.length_map] at hlen
        have hy1 : 0 < y.length := List.length_pos_iff.2 hy
        have hc1 : 0 < g'.cur.length := by
          apply List.length_pos_iff.2
          intro hc
          have := congrArg List.length (s9 hc)
          simp only [List.length_map, List.length_nil] at this
          omega
        omega
    rw [hc0]; rfl
  · intro m hm'
    have := sealed_lengths 4 vtime (room o) hm _ seq s10 m hm'
    exact ⟨by omega, by omega, sealed_vtime 4 vtime c.main _ seq m hm'⟩

private theorem p2n_congr : ∀ (a b : List Nat) (n : Nat), a.length = b.length →
    Ipcalc.prefixToNetmask a n = Ipcalc.prefixToNetmask b n := by
  intro a
  induction a with
  | nil => intro b n h; cases b with
    | nil => rfl
    | cons => simp at h
  | cons x xs ih =>
    intro b n h
    cases b with
    | nil => simp at h
    | cons y ys =>
      simp only [List.length_cons, Nat.add_right_cancel_iff] at h
      have hm : xs.map (fun _ => 0) = ys.map (fun _ => 0) := by
        rw [List.map_const', List.map_const', h]
      unfold Ipcalc.prefixToNetmask
      rw [ih ys (n - 8) h, hm]

/-- the netmask of a prefix length, in the first bytes of the local variable -/
private def maskOf (v6 : Bool) (plen : Nat) : List Nat :=
  (Ipcalc.prefixToNetmask (List.replicate (ipsize v6) 0) plen).2

private theorem maskOf_spec (v6 : Bool) (plen : Nat) (h : plen ≤ 8 * ipsize v6) :
    (maskOf v6 plen).length = ipsize v6 ∧ Ipcalc.toPrefix (maskOf v6 plen) = plen := by
  have hl : (List.replicate (ipsize v6) 0).length = ipsize v6 := List.length_replicate
  obtain ⟨m, h1, h2, h3, h4⟩ := Ipcalc.C10_prefix_roundtrip (List.replicate (ipsize v6) 0) plen
    (by cases v6 <;> decide) (by rw [hl]; cases v6 <;> decide) (by rw [hl]; exact h)
  unfold maskOf
  rw [h1]
  exact ⟨h2.trans hl, h4⟩

private theorem plain_not_smart (v6 : Bool) (addr : List Nat) (plen : Nat) :
    isSmartGw v6 addr plen (maskOf v6 plen) = false := by
  cases hg : isInetGw v6 addr plen with
  | false => unfold isSmartGw; rw [hg]; rfl
  | true =>
    have hcase : (v6 = false ∧ plen = 0) ∨ (v6 = true ∧ (plen = 3 ∨ plen = 96)) := by
      cases v6
      · left
        simp [isInetGw] at hg
        exact ⟨rfl, hg.1⟩
      · right
        simp [isInetGw, Ipcalc.isInetGw6, Ipcalc.isV6InetGw, Ipcalc.isMapped4InetGw] at hg
        exact ⟨rfl, hg.imp id (fun h => h.1)⟩
    unfold isSmartGw
    rw [hg]
    rcases hcase with ⟨rfl, rfl⟩ | ⟨rfl, rfl | rfl⟩ <;> decide

private theorem base_mask (c : Cfg) (junk : List Nat) (plen : Nat) (hj : junk.length = 16) :
    (Ipcalc.prefixToNetmask (junk.take (ipsize c.v6)) plen).2 = maskOf c.v6 plen := by
  unfold maskOf
  rw [p2n_congr]
  rw [List.length_take, List.length_replicate, hj]
  cases c.v6 <;> decide

private theorem hnaItem_plain (c : Cfg) (junk : List Nat) (zero : Bool) (e : List Nat × Nat) (hj : junk.length = 16)
    (hp : e.2 ≤ 8 * ipsize c.v6) (h : (c.sgwActive && isInetGw c.v6 e.1 e.2) = false) :
    hnaItem c junk zero e = .ok (some (e.1 ++ maskOf c.v6 e.2, false)) := by
  unfold hnaItem
  have h1 : (!zero && c.sgwActive && isInetGw c.v6 e.1 e.2 && zeroBw c) = false := by
    rw [Bool.and_assoc (!zero), h]; simp
  rw [h1, h, base_mask c junk e.2 hj]
  simp only [Bool.false_eq_true, if_false]
  have := (maskOf_spec c.v6 e.2 hp).1
  rw [← this, List.take_left]

private theorem hnaItems_plain (c : Cfg) (junk : List Nat) (zero : Bool) (hj : junk.length = 16) (es : List (List Nat × Nat))
    (hp : ∀ e ∈ es, e.2 ≤ 8 * ipsize c.v6) (h : ∀ e ∈ es, (c.sgwActive && isInetGw c.v6 e.1 e.2) = false) :
    hnaItems c junk zero es = .ok (es.map (fun e => (e.1 ++ maskOf c.v6 e.2, false))) := by
  induction es with
  | nil => rfl
  | cons e es ih =>
    rw [hnaItems, hnaItem_plain c junk zero e hj (hp e (List.mem_cons_self ..)) (h e (List.mem_cons_self ..)),
      ih (fun e he => hp e (List.mem_cons_of_mem _ he)) (fun e he => h e (List.mem_cons_of_mem _ he))]
    rfl

private theorem pair_plain (v6 : Bool) (r : Rx) (e : List Nat × Nat) (hp : e.2 ≤ 8 * ipsize v6)
    (h1 : ¬ e.1 ∈ r.ifs) (h2 : ¬ e ∈ r.own) : hnaPair v6 r e.1 (maskOf v6 e.2) = .update e.1 e.2 := by
  unfold hnaPair
  simp only [(maskOf_spec v6 e.2 hp).2, plain_not_smart, Bool.and_false, Bool.false_eq_true, if_false]
  rw [if_neg (by simpa using h1), if_neg (by simpa using h2)]

/-- **C18 (partial).**  Full claim: the HNA messages generated from a list of networks make a receiver register exactly these networks
with exactly these prefix lengths, in order.  Proved for both address families, every list of networks, every state of the output
buffer, every receiver to which none of the networks belongs (`Foreign`), whether or not it uses smart gateways, provided the sender does not
announce itself as a smart gateway (C67 and C68 are about that case), an empty output buffer has room for one entry,
and, in IPv4, the number of entries is not 8191 (`C18_8191_entries_exit`).  Every message fits the buffer and has an entry. -/
theorem C18_roundtrip_partial (c : Cfg) (junk : List Nat) (valtime reltime period : Nat) (es : List (List Nat × Nat)) (s : HnaState)
    (r : Rx) (hj : junk.length = 16) (hm : c.main.length = ipsize c.v6)
    (he : ∀ e ∈ es, e.1.length = ipsize c.v6 ∧ e.2 ≤ 8 * ipsize c.v6) (hs : s.seq < 65536)
    (hp : s.out.pend ≤ s.out.max) (hroom : hdr c.v6 + 2 * ipsize c.v6 ≤ s.out.max)
    (hn : c.v6 = true ∨ es.length % 8192 ≠ 8191) (hr : Foreign r es)
    (hg : c.sgwActive = false ∨ (s.zeroTime = 0 ∧ ∀ e ∈ es, isInetGw c.v6 e.1 e.2 = false)) :
    ∃ s' ms, ∃ evs : List (List Ev), hna c junk valtime reltime period es s = .ok s' ∧ s'.out.msgs = s.out.msgs ++ ms ∧
      ms.map (inputHna c.v6 r true) = evs.map (fun e => some (some (c.main, e))) ∧
      evs.flatten = es.map (fun e => Ev.update e.1 e.2) ∧
      (∀ e ∈ evs, e ≠ []) ∧ (∀ m ∈ ms, m.length ≤ 1228 ∧ m.length ≤ s.out.max ∧ m.getD 1 0 = valtime) ∧ s'.zeroTime = s.zeroTime := by
  by_cases h0 : es = []
  · refine ⟨s, [], [], ?_, by simp, rfl, by simp [h0], (fun _ h => (by cases h)), (fun _ h => (by cases h)), rfl⟩
    unfold hna
    rw [if_pos h0]
    rcases hg with hg | ⟨hg, -⟩
    · rw [hg]; simp
    · rw [if_pos hg]
  · have hpl : ∀ e ∈ es, (c.sgwActive && isInetGw c.v6 e.1 e.2) = false := by
      intro e he'
      rcases hg with hg | ⟨-, hg⟩
      · rw [hg]; rfl
      · rw [hg e he']; simp
    have hit := hnaItems_plain c junk false hj es (fun e h => (he e h).2) hpl
    obtain ⟨o', seq', ms, evs, k1, -, k2, k3, -, k4, k5, k6, -, k7⟩ :=
      hnaList_ok c junk valtime false es s.out s.seq (es.map (fun e => ((e.1, maskOf c.v6 e.2), false)))
        (by rw [hit, List.map_map]; rfl)
        (by
          intro i hi
          obtain ⟨e, he', rfl⟩ := List.mem_map.1 hi
          exact ⟨(he e he').1, (maskOf_spec c.v6 e.2 (he e he').2).1⟩)
        hm hs hp hroom hn r
    have hany : (es.map (fun e => ((e.1, maskOf c.v6 e.2), false))).any Prod.snd = false := by
      rw [List.any_map]
      simp [Function.comp]
    rw [hany] at k1
    have hw : (c.sgwActive && !false && (s.zeroTime != 0)) = false := by
      rcases hg with hg | ⟨hg, -⟩
      · rw [hg]; rfl
      · rw [hg]; simp
    refine ⟨⟨o', seq', s.zeroTime⟩, ms, evs, ?_, k2, k4, ?_, k6 ?_, k7, rfl⟩
    · unfold hna
      rw [if_neg h0, k1]
      simp only [Bool.false_eq_true, if_false]
      rw [hw]
      simp
    · rw [k5, List.map_map]
      apply List.map_congr_left
      intro e he'
      exact pair_plain c.v6 r e (he e he').2 (hr e he').1 (hr e he').2
    · intro hnil; exact h0 (by simpa using hnil)

/-- a plain node -/
def plain4 : Cfg := ⟨false, [10, 0, 0, 1], false, false, false, false, 0, 0, List.replicate 16 0, 0⟩

example : hna plain4 (List.replicate 16 170) 0x86 0 0 [([10, 7, 0, 0], 16), ([0, 0, 0, 0], 0)] ⟨⟨27, 0, []⟩, 9, 0⟩ =
    .ok ⟨⟨27, 20, [[4, 0x86, 0, 20, 10, 0, 0, 1, 255, 0, 0, 9, 10, 7, 0, 0, 255, 255, 0, 0],
      [4, 0x86, 0, 20, 10, 0, 0, 1, 255, 0, 0, 10, 0, 0, 0, 0, 0, 0, 0, 0]]⟩, 11, 0⟩ := by decide

/-- **C18 with 8191 entries is false**: the estimate of the needed room is 12 + 8 * 8191 = 65540, stored in 16 bits
as 4, so a buffer with 4 to 11 bytes left is not sent first and the program ends itself. -/
theorem C18_8191_entries_exit (c : Cfg) (junk : List Nat) (valtime reltime period : Nat) (es : List (List Nat × Nat)) (s : HnaState)
    (h4 : c.v6 = false) (hn : es.length = 8191) (h1 : 4 ≤ s.out.max - s.out.pend) (h2 : s.out.max - s.out.pend < 12) :
    hna c junk valtime reltime period es s = .exit := by
  have hne : es ≠ [] := by rintro rfl; simp at hn
  have hl : left s.out = s.out.max - s.out.pend := by unfold left; rw [if_neg (by omega)]
  have hst : start c.v6 es.length s.out s.seq = .exit := by
    unfold start
    rw [h4, hn]
    have e : (hdr false + 8191 * (2 * ipsize false)) % 65536 = 4 := by decide
    have e2 : hdr false = 12 := rfl
    simp only [e]
    rw [if_neg (show ¬ 4 > left s.out by omega), hl, e2, if_pos (by omega)]
  unfold hna hnaList
  rw [if_neg hne, hst]

/-! ### C67: the settings of a smart gateway in its announcement -/

/-- What a receiver is to learn from the announcement of a gateway. -/
def Announced (c : Cfg) (g : GwInfo) : Prop :=
  g.up = GwSpeed.decode (GwSpeed.encode c.up) ∧ g.down = GwSpeed.decode (GwSpeed.encode c.down) ∧
  (g.ipv4 = true ↔ c.has4 = true) ∧ (g.nat = true ↔ c.has4 = true ∧ c.nat = true) ∧
  (g.ipv6 = true ↔ c.v6 = true ∧ c.has6 = true)

private theorem speed_pos (x : Nat) (h : x ≠ 0) : GwSpeed.decode (GwSpeed.encode x) ≠ 0 := by
  by_cases h1 : x = 1
  · rw [h1, (GwSpeed.C31_special 0).2.1]; omega
  · by_cases h2 : x < 320000000
    · have := GwSpeed.C31_decode_bounds x (by omega) h2
      intro h0
      rw [h0] at this
      omega
    · rw [(GwSpeed.C31_special x).2.2 (by omega)]; omega

/-- the mask of a gateway in the two cases that work -/
private def gwMask (c : Cfg) (plen : Nat) (zero : Bool) : List Nat :=
  List.replicate (plen / 8) 255 ++ [0, flagByte c plen (if c.v6 && decide (0 < c.pfxLen) then 17 else 1),
    if zero then GwSpeed.encode 0 else GwSpeed.encode c.up, if zero then GwSpeed.encode 0 else GwSpeed.encode c.down]

private theorem hnaItem_gw (c : Cfg) (junk : List Nat) (zero : Bool) (e : List Nat × Nat) (hj : junk.length = 16)
    (ha : c.sgwActive = true) (hz : zero = true ∨ zeroBw c = false) (hg : isInetGw c.v6 e.1 e.2 = true)
    (hp : (c.v6 = false ∧ e.2 = 0) ∨ (c.v6 = true ∧ e.2 = 96)) :
    hnaItem c junk zero e = .ok (some (e.1 ++ gwMask c e.2 zero, true)) := by
  have h1 : (!zero && c.sgwActive && isInetGw c.v6 e.1 e.2 && zeroBw c) = false := by
    rcases hz with h | h <;> rw [h] <;> simp
  have h2 : (c.sgwActive && isInetGw c.v6 e.1 e.2) = true := by rw [ha, hg]; rfl
  unfold hnaItem
  rw [h1, h2, base_mask c junk e.2 hj]
  simp only [Bool.false_eq_true, if_false, if_true]
  rcases hp with ⟨h4, h0⟩ | ⟨h6, h96⟩
  · have hmod : modifyMask c (maskOf c.v6 e.2 ++ junk.drop (ipsize c.v6)) e.2 zero =
        .ok (gwMask c 0 zero ++ List.replicate 12 0) := by
      have hlen : (maskOf false 0 ++ junk.drop (ipsize false)).length = 16 := by
        rw [List.length_append, List.length_drop, hj]; decide
      rw [h0, h4]
      unfold modifyMask
      rw [show hnaOff 0 = 0 from rfl, hlen]
      simp only [gwMask, settings, h4]
      rw [if_neg (by omega)]
      have hd : (maskOf false 0 ++ junk.drop (ipsize false)).drop 16 = [] := List.drop_of_length_le (by omega)
      rw [show 0 + (16 - 0 / 8) = 16 from rfl, hd]
      rfl
    rw [hmod, h0, h4]
    rfl
  · have hmod : modifyMask c (maskOf c.v6 e.2 ++ junk.drop (ipsize c.v6)) e.2 zero =
        .ok (gwMask c 96 zero) := by
      have hd : junk.drop (ipsize true) = [] := List.drop_of_length_le (by rw [hj]; decide)
      have hmk : maskOf true 96 = List.replicate 12 255 ++ [0, 0, 0, 0] := by decide
      rw [h96, h6, hd, List.append_nil, hmk]
      unfold modifyMask
      rw [show hnaOff 96 = 12 from rfl]
      simp only [gwMask, settings, h6]
      rw [if_neg (by decide)]
      rfl
    rw [hmod, h96, h6]
    rfl

private theorem gw_received (c : Cfg) (r : Rx) (e : List Nat × Nat) (zero : Bool) (old : List Nat × Nat)
    (hr : r.sgwActive = true) (hg : isInetGw c.v6 e.1 e.2 = true)
    (hp : (c.v6 = false ∧ e.2 = 0) ∨ (c.v6 = true ∧ e.2 = 96)) :
    (gwMask c e.2 zero).length = ipsize c.v6 ∧
    hnaPair c.v6 r e.1 (gwMask c e.2 zero) = .gateway e.2 (gwMask c e.2 zero) ∧
    readGw c.v6 e.2 (gwMask c e.2 zero) old =
      { up := GwSpeed.decode (if zero then GwSpeed.encode 0 else GwSpeed.encode c.up)
        down := GwSpeed.decode (if zero then GwSpeed.encode 0 else GwSpeed.encode c.down)
        ipv4 := c.has4, nat := c.has4 && c.nat, ipv6 := c.v6 && c.has6, ext := old } := by
  have hf : ∀ (plen : Nat), plen ≠ 3 → ∀ b, b = 17 ∨ b = 1 →
      flagByte c plen b = 1 + (if c.has4 then 2 else 0) + (if c.has4 && c.nat then 4 else 0) + (if c.has6 then 8 else 0) := by
    intro plen h3 b hb
    unfold flagByte
    have : (!c.has6 || plen != 3) = true := by simp [h3]
    simp only [this, if_true]
    rcases hb with rfl | rfl <;> cases c.has4 <;> cases c.nat <;> cases c.has6 <;> decide
  have hb : (if c.v6 && decide (0 < c.pfxLen) then 17 else 1) = 17 ∨ (if c.v6 && decide (0 < c.pfxLen) then 17 else 1) = 1 := by
    split
    · exact Or.inl rfl
    · exact Or.inr rfl
  obtain ⟨f, hfe⟩ : ∃ f, flagByte c e.2 (if c.v6 && decide (0 < c.pfxLen) then 17 else 1) = f := ⟨_, rfl⟩
  have hfv := hf e.2 (by rcases hp with h | h <;> rw [h.2] <;> decide) _ hb
  rw [hfe] at hfv
  have hne : (f != 0) = true := by
    have : f ≠ 0 := by omega
    simpa using this
  have ht : f.testBit 0 = true ∧ f.testBit 1 = c.has4 ∧ f.testBit 2 = (c.has4 && c.nat) ∧ f.testBit 3 = c.has6 := by
    rw [hfv]
    cases c.has4 <;> cases c.nat <;> cases c.has6 <;> decide
  obtain ⟨t0, t1, t2, t3⟩ := ht
  obtain ⟨u, hu⟩ : ∃ u, (if zero then GwSpeed.encode 0 else GwSpeed.encode c.up) = u := ⟨_, rfl⟩
  obtain ⟨d, hd⟩ : ∃ d, (if zero then GwSpeed.encode 0 else GwSpeed.encode c.down) = d := ⟨_, rfl⟩
  have hmk : gwMask c e.2 zero = List.replicate (e.2 / 8) 255 ++ [0, f, u, d] := by
    unfold gwMask; rw [hfe, hu, hd]
  rw [hmk, hu, hd]
  rcases hp with ⟨h4, h0⟩ | ⟨h6, h96⟩
  · have hg' : isInetGw false e.1 0 = true := by rw [h4, h0] at hg; exact hg
    rw [h0, h4]
    refine ⟨rfl, ?_, ?_⟩
    · unfold hnaPair
      have htp : Ipcalc.toPrefix (List.replicate (0 / 8) 255 ++ [0, f, u, d]) = 0 := rfl
      simp only [htp, hr, isSmartGw, hg']
      have e1 : (List.replicate (0 / 8) 255 ++ [0, f, u, d]).getD (hnaOff 0) 0 = 0 := rfl
      have e2 : (List.replicate (0 / 8) 255 ++ [0, f, u, d]).getD (hnaOff 0 + 1) 0 = f := rfl
      rw [e1, e2, hne]; rfl
    · unfold readGw
      have e2 : (List.replicate (0 / 8) 255 ++ [0, f, u, d]).getD (hnaOff 0 + 1) 0 = f := rfl
      simp only [e2, t0, t1, t2, t3]
      rfl
  · have hg' : isInetGw true e.1 96 = true := by rw [h6, h96] at hg; exact hg
    rw [h96, h6]
    refine ⟨rfl, ?_, ?_⟩
    · unfold hnaPair
      have htp : Ipcalc.toPrefix (List.replicate (96 / 8) 255 ++ [0, f, u, d]) = 96 := rfl
      simp only [htp, hr, isSmartGw, hg']
      have e1 : (List.replicate (96 / 8) 255 ++ [0, f, u, d]).getD (hnaOff 96) 0 = 0 := rfl
      have e2 : (List.replicate (96 / 8) 255 ++ [0, f, u, d]).getD (hnaOff 96 + 1) 0 = f := rfl
      rw [e1, e2, hne]; rfl
    · unfold readGw
      have e2 : (List.replicate (96 / 8) 255 ++ [0, f, u, d]).getD (hnaOff 96 + 1) 0 = f := rfl
      simp only [e2, t0, t1, t2, t3]
      rfl

private theorem gw_plen {v6 : Bool} {addr : List Nat} {plen : Nat} (h : isInetGw v6 addr plen = true) (h3 : plen ≠ 3) :
    (v6 = false ∧ plen = 0) ∨ (v6 = true ∧ plen = 96) := by
  cases v6
  · left
    simp [isInetGw] at h
    exact ⟨rfl, h.1⟩
  · right
    simp [isInetGw, Ipcalc.isInetGw6, Ipcalc.isV6InetGw, Ipcalc.isMapped4InetGw] at h
    exact ⟨rfl, h.elim (fun h => absurd h h3) (fun h => h.1)⟩

private def itemOf (c : Cfg) (e : List Nat × Nat) : (List Nat × List Nat) × Bool :=
  if isInetGw c.v6 e.1 e.2 then ((e.1, gwMask c e.2 false), true) else ((e.1, maskOf c.v6 e.2), false)

private theorem hnaItems_mixed (c : Cfg) (junk : List Nat) (hj : junk.length = 16) (es : List (List Nat × Nat))
    (ha : c.sgwActive = true) (hz : zeroBw c = false)
    (hp : ∀ e ∈ es, e.2 ≤ 8 * ipsize c.v6) (h3 : ∀ e ∈ es, isInetGw c.v6 e.1 e.2 = true → e.2 ≠ 3) :
    hnaItems c junk false es = .ok ((es.map (itemOf c)).map (fun i => (i.1.1 ++ i.1.2, i.2))) := by
  induction es with
  | nil => rfl
  | cons e es ih =>
    have ih := ih (fun e he => hp e (List.mem_cons_of_mem _ he)) (fun e he => h3 e (List.mem_cons_of_mem _ he))
    rw [hnaItems, ih]
    cases hg : isInetGw c.v6 e.1 e.2 with
    | false =>
      rw [hnaItem_plain c junk false e hj (hp e (List.mem_cons_self ..)) (by rw [hg]; simp)]
      simp only [List.map_cons, itemOf, hg, Bool.false_eq_true, if_false]
    | true =>
      rw [hnaItem_gw c junk false e hj ha (Or.inr hz) hg (gw_plen hg (h3 e (List.mem_cons_self ..) hg))]
      simp only [List.map_cons, itemOf, hg, if_true]

/-- **C67 (partial).**  Full claim: from the announcements of a smart gateway every receiver that uses smart gateways learns the gateway's
speeds (up to the codec of C31), whether it has IPv4, NAT and IPv6, and its external IPv6 prefix; other networks are learned
as they are.  Proved for 0.0.0.0/0 and ::ffff:0:0/96 among any other networks; the entry is not dropped for a zero
speed.  Missing: any IPv6 prefix of length 3, for which the sender writes outside an object (`C67_slash3_undefined`); and the external prefix is never
learned (`C67_prefix_never_learned`). -/
theorem C67_announced_partial (c : Cfg) (junk : List Nat) (valtime reltime period : Nat) (es : List (List Nat × Nat)) (s : HnaState)
    (r : Rx) (hj : junk.length = 16) (hm : c.main.length = ipsize c.v6)
    (he : ∀ e ∈ es, e.1.length = ipsize c.v6 ∧ e.2 ≤ 8 * ipsize c.v6) (hs : s.seq < 65536)
    (hp : s.out.pend ≤ s.out.max) (hroom : hdr c.v6 + 2 * ipsize c.v6 ≤ s.out.max)
    (hn : c.v6 = true ∨ es.length % 8192 ≠ 8191) (hr : Foreign r es) (hra : r.sgwActive = true)
    (ha : c.sgwActive = true) (hu : c.up ≠ 0) (hd : c.down ≠ 0)
    (h3 : ∀ e ∈ es, isInetGw c.v6 e.1 e.2 = true → e.2 ≠ 3) (hgw : ∃ e ∈ es, isInetGw c.v6 e.1 e.2 = true) :
    ∃ s' ms, ∃ evs : List (List Ev), hna c junk valtime reltime period es s = .ok s' ∧ s'.out.msgs = s.out.msgs ++ ms ∧
      ms.map (inputHna c.v6 r true) = evs.map (fun e => some (some (c.main, e))) ∧
      evs.flatten.length = es.length ∧ s'.zeroTime = reltime ∧
      ∀ (i : Nat) (e : List Nat × Nat), es[i]? = some e →
        (isInetGw c.v6 e.1 e.2 = false ∧ evs.flatten[i]? = some (.update e.1 e.2)) ∨
        (isInetGw c.v6 e.1 e.2 = true ∧ ∃ mask, evs.flatten[i]? = some (.gateway e.2 mask) ∧
          ∀ old, Announced c (readGw c.v6 e.2 mask old) ∧ dropped (readGw c.v6 e.2 mask old) = false) := by
  have hne : es ≠ [] := by obtain ⟨e, he', -⟩ := hgw; rintro rfl; cases he'
  have hz : zeroBw c = false := by simp [zeroBw, hu, hd]
  obtain ⟨o', seq', ms, evs, k1, -, k2, k3, -, k4, k5, k6, -, k7⟩ :=
    hnaList_ok c junk valtime false es s.out s.seq (es.map (itemOf c))
      (hnaItems_mixed c junk hj es ha hz (fun e h => (he e h).2) h3)
      (by
        intro i hi
        obtain ⟨e, he', rfl⟩ := List.mem_map.1 hi
        unfold itemOf
        split
        · rename_i hg
          exact ⟨(he e he').1, (gw_received c r e false ([], 0) hra hg (gw_plen hg (h3 e he' hg))).1⟩
        · exact ⟨(he e he').1, (maskOf_spec c.v6 e.2 (he e he').2).1⟩)
      hm hs hp hroom hn r
  have hany : (es.map (itemOf c)).any Prod.snd = true := by
    obtain ⟨e, he', hg⟩ := hgw
    rw [List.any_eq_true]
    refine ⟨itemOf c e, List.mem_map.2 ⟨e, he', rfl⟩, ?_⟩
    unfold itemOf; rw [hg]; rfl
  rw [hany] at k1
  refine ⟨⟨o', seq', reltime⟩, ms, evs, ?_, k2, k4, ?_, rfl, ?_⟩
  · unfold hna
    rw [if_neg hne, k1]
    simp
  · rw [k5, List.length_map, List.length_map]
  · intro i e hi
    have hmem : e ∈ es := List.mem_of_getElem? hi
    have hev : evs.flatten[i]? = some (hnaPair c.v6 r (itemOf c e).1.1 (itemOf c e).1.2) := by
      rw [k5, List.getElem?_map, List.getElem?_map, hi]; rfl
    cases hg : isInetGw c.v6 e.1 e.2 with
    | false =>
      left
      refine ⟨rfl, ?_⟩
      rw [hev]
      simp only [itemOf, hg, Bool.false_eq_true, if_false]
      rw [pair_plain c.v6 r e (he e hmem).2 (hr e hmem).1 (hr e hmem).2]
    | true =>
      right
      have hpl := gw_plen hg (h3 e hmem hg)
      refine ⟨rfl, gwMask c e.2 false, ?_, ?_⟩
      · rw [hev]
        simp only [itemOf, hg, if_true]
        rw [(gw_received c r e false ([], 0) hra hg hpl).2.1]
      · intro old
        rw [(gw_received c r e false old hra hg hpl).2.2]
        simp only [Bool.false_eq_true, if_false]
        constructor
        · refine ⟨rfl, rfl, Iff.rfl, by simp, by simp⟩
        · simp only [dropped]
          have h1 := speed_pos c.up hu
          have h2 := speed_pos c.down hd
          simp [h1, h2]

/-- a gateway with 128 kbit/s up and 1 Mbit/s down, with NAT -/
def gw4 : Cfg := ⟨false, [10, 0, 0, 1], true, true, false, true, 128, 1000, List.replicate 16 0, 0⟩

example : hna gw4 (List.replicate 16 170) 0x86 15000 5000 [([10, 7, 0, 0], 16), ([0, 0, 0, 0], 0)] ⟨⟨50, 0, []⟩, 9, 0⟩ =
    .ok ⟨⟨50, 28, [[4, 0x86, 0, 28, 10, 0, 0, 1, 255, 0, 0, 9, 10, 7, 0, 0, 255, 255, 0, 0, 0, 0, 0, 0, 0, 7, 89, 3]]⟩, 10, 15000⟩ ∧
    readGw false 0 [0, 7, 89, 3] ([], 0) = ⟨120, 1000, true, true, false, ([], 0)⟩ := by decide +kernel

/-- **C67 is false for IPv6**: for a prefix of length 3, such as the default route 2000::/3, the settings are copied to
one byte behind the first one of the netmask but with the full length of 16 bytes; the last one is written behind the
local variable. -/
theorem C67_slash3_undefined (c : Cfg) (junk : List Nat) (valtime reltime period : Nat) (es : List (List Nat × Nat)) (s : HnaState)
    (hj : junk.length = 16) (h6 : c.v6 = true) (ha : c.sgwActive = true) (hu : c.up ≠ 0) (hd : c.down ≠ 0)
    (hp : s.out.pend ≤ s.out.max) (hroom : 24 ≤ s.out.max)
    (hgw : ∃ e ∈ es, e.2 = 3) : hna c junk valtime reltime period es s = .ub := by
  have hne : es ≠ [] := by obtain ⟨e, he', -⟩ := hgw; rintro rfl; cases he'
  have hz : zeroBw c = false := by simp [zeroBw, hu, hd]
  have hlen : ∀ p, ((Ipcalc.prefixToNetmask (junk.take (ipsize c.v6)) p).2 ++ junk.drop (ipsize c.v6)).length ≤ 16 := by
    intro p
    rw [base_mask c junk p hj, List.length_append, List.length_drop, hj]
    have : ∀ (a : List Nat) (n : Nat), (Ipcalc.prefixToNetmask a n).2.length = a.length := by
      intro a
      induction a with
      | nil => intro n; rfl
      | cons x xs ih =>
        intro n
        unfold Ipcalc.prefixToNetmask
        split
        · simp only [List.length_cons, ih]
        · simp
    unfold maskOf
    rw [this, List.length_replicate]
    rw [h6]; decide
  have hitem : ∀ e : List Nat × Nat, hnaItem c junk false e ≠ .exit := by
    intro e
    unfold hnaItem
    split
    · simp
    · simp only
      split
      · cases hm : modifyMask c ((Ipcalc.prefixToNetmask (junk.take (ipsize c.v6)) e.2).2 ++ junk.drop (ipsize c.v6)) e.2 false with
        | ok m => simp
        | exit =>
          exfalso
          unfold modifyMask at hm
          simp only at hm
          split at hm <;> cases hm
        | ub => simp
      · simp
  have h3 : ∀ e : List Nat × Nat, e.2 = 3 → hnaItem c junk false e = .ub := by
    intro e he
    have hg : isInetGw c.v6 e.1 e.2 = true := by
      rw [h6, he]; exact Ipcalc.C48_any_slash3_is_gateway e.1
    unfold hnaItem
    rw [hz, ha, hg]
    simp only [Bool.and_false, Bool.false_eq_true, if_false, Bool.and_true, if_true]
    have hm : modifyMask c ((Ipcalc.prefixToNetmask (junk.take (ipsize c.v6)) e.2).2 ++ junk.drop (ipsize c.v6)) e.2 false = .ub := by
      unfold modifyMask
      have := hlen e.2
      have e1 : hnaOff e.2 + (16 - e.2 / 8) = 17 := by rw [he]; rfl
      simp only [e1]
      rw [if_pos (by omega)]
    rw [hm]
  have hits : ∀ L : List (List Nat × Nat), (∃ e ∈ L, e.2 = 3) → hnaItems c junk false L = .ub := by
    intro L
    induction L with
    | nil => rintro ⟨e, he, -⟩; cases he
    | cons x xs ih =>
      rintro ⟨e, he, h⟩
      rw [hnaItems]
      rcases List.mem_cons.1 he with rfl | he
      · rw [h3 _ h]
      · have ih := ih ⟨e, he, h⟩
        cases hx : hnaItem c junk false x with
        | exit => exact absurd hx (hitem x)
        | ub => rfl
        | ok y =>
          cases y with
          | none => exact ih
          | some i => simp only [ih]
  obtain ⟨o', h1, -⟩ := start_ok c.v6 es.length s.out s.seq hp (Or.inl h6)
    (by rw [h6]; show 24 ≤ room s.out; unfold room; split <;> omega) []
  unfold hna hnaList
  rw [if_neg hne, h1, hits es hgw]

/-- an IPv6 gateway announcing 2000::/3 -/
example : hna ⟨true, List.replicate 16 1, true, false, true, false, 128, 1000, List.replicate 16 0, 0⟩ (List.replicate 16 170)
    0x86 15000 5000 [(route6, 3)] ⟨⟨1000, 0, []⟩, 9, 0⟩ = .ub := by decide

/-- **C67, the external prefix is never learned**: whatever netmask is received, the prefix stays as it was or is
erased, because the netmask is compared with the address 2000:: of which no netmask of length 3 is equal. -/
theorem C67_prefix_never_learned (v6 : Bool) (mask : List Nat) (old : List Nat × Nat) :
    (readGw v6 (Ipcalc.toPrefix mask) mask old).ext = old ∨
    (readGw v6 (Ipcalc.toPrefix mask) mask old).ext = (List.replicate 8 0, 0) := by
  by_cases h : (v6 && Ipcalc.toPrefix mask == 3) = true
  · right
    have h3 : Ipcalc.toPrefix mask = 3 := by
      simp at h; exact h.2
    have hne : (mask == route6) = false := by
      have : mask ≠ route6 := by
        rintro rfl
        exact absurd h3 (by decide)
      simpa using this
    simp only [readGw, h, if_true, hne, Bool.and_false, Bool.false_eq_true, if_false]
  · left
    have h' : (v6 && Ipcalc.toPrefix mask == 3) = false := by simpa using h
    simp only [readGw, h', Bool.false_eq_true, if_false]

/-! ### C68: the withdrawal of a gateway -/

private theorem withdraw_run (c : Cfg) (junk : List Nat) (valtime reltime period : Nat) (s : HnaState)
    (ha : c.sgwActive = true) (hz : s.zeroTime ≠ 0) :
    hna c junk valtime reltime period [] s = withdraw c junk period s := by
  unfold hna
  rw [if_pos rfl, if_neg hz, ha]; rfl

/-- **C68 (partial).**  Full claim: while the validity time of its last announcement has not run out, a node that no
longer announces itself as a gateway sends, at each HNA interval, one message that makes every receiver using smart gateways drop
it.  Proved for IPv4 (and a node without other networks); in IPv6 the message is something else
(`C68_ipv6_default_route`).  `Mantissa.relToMe` never fails on 32-bit times (C01). -/
theorem C68_withdrawn_partial (c : Cfg) (junk : List Nat) (valtime reltime period vt : Nat) (s : HnaState)
    (r : Rx) (hj : junk.length = 16) (hm : c.main.length = 4) (h4 : c.v6 = false) (hs : s.seq < 65536)
    (hp : s.out.pend ≤ s.out.max) (hroom : 20 ≤ s.out.max) (hra : r.sgwActive = true)
    (ha : c.sgwActive = true) (hz : s.zeroTime ≠ 0) (hvt : Mantissa.relToMe s.zeroTime = some vt) :
    ∃ s' m mask, hna c junk valtime reltime period [] s = .ok s' ∧ s'.out.msgs = s.out.msgs ++ [m] ∧
      inputHna false r true m = some (some (c.main, [.gateway 0 mask])) ∧
      (∀ old, dropped (readGw false 0 mask old) = true) ∧ m.getD 1 0 = vt ∧
      s'.zeroTime = s.zeroTime - period ∧ s'.out.max = s.out.max ∧ s'.out.pend ≤ s'.out.max ∧ s'.seq < 65536 := by
  have hg : isInetGw c.v6 (zeroEntry c).1 (zeroEntry c).2 = true := by
    unfold zeroEntry; rw [h4]; decide
  have hpl : (c.v6 = false ∧ (zeroEntry c).2 = 0) ∨ (c.v6 = true ∧ (zeroEntry c).2 = 96) := Or.inl ⟨h4, rfl⟩
  have hm' : c.main.length = ipsize c.v6 := by rw [h4]; exact hm
  have hrec := fun old => gw_received c r (zeroEntry c) true old hra hg hpl
  obtain ⟨o', seq', ms, evs, k1, kq, k2, k3, kp, k4, k5, k6, k8, k7⟩ :=
    hnaList_ok c junk vt true [zeroEntry c] s.out s.seq [(((zeroEntry c).1, gwMask c 0 true), true)]
      (by
        rw [hnaItems, hnaItem_gw c junk true (zeroEntry c) hj ha (Or.inl rfl) hg hpl]
        rfl)
      (by
        intro i hi
        rw [List.mem_singleton] at hi
        rw [hi]
        exact ⟨by simp [zeroEntry], (hrec ([], 0)).1⟩)
      hm' hs hp (by rw [h4]; exact hroom) (Or.inr (show 1 % 8192 ≠ 8191 by decide)) r
  have hlen := k8 (Nat.le_refl _)
  obtain ⟨m, rfl⟩ : ∃ m, ms = [m] := by
    match ms, hlen with
    | [m], _ => exact ⟨m, rfl⟩
  have hevs : evs.length = 1 := by
    have := congrArg List.length k4
    simpa using this.symm
  obtain ⟨ev, rfl⟩ : ∃ ev, evs = [ev] := by
    match evs, hevs with
    | [ev], _ => exact ⟨ev, rfl⟩
  have hev : ev = [.gateway 0 (gwMask c 0 true)] := by
    have h := (hrec ([], 0)).2.1
    simp at k5
    rw [k5]
    congr 1
  have hvt' : m.getD 1 0 = vt := (k7 m (List.mem_singleton.2 rfl)).2.2
  refine ⟨⟨o', seq', if s.zeroTime ≤ period then 0 else s.zeroTime - period⟩, m, gwMask c 0 true, ?_, k2, ?_, ?_, hvt', ?_, k3, kp, kq⟩
  · rw [withdraw_run c junk valtime reltime period s ha hz, withdraw, hvt]
    simp only [k1]
  · rw [h4] at k4
    rw [hev] at k4
    simpa using k4
  · intro old
    have := (hrec old).2.2
    rw [h4] at this
    show dropped (readGw false (zeroEntry c).2 (gwMask c (zeroEntry c).2 true) old) = true
    rw [this]
    rfl
  · show (if s.zeroTime ≤ period then 0 else s.zeroTime - period) = _
    split <;> omega

example : ∃ vt, Mantissa.relToMe 15000 = some vt ∧
    hna gw4 (List.replicate 16 170) 0x86 15000 5000 [] ⟨⟨50, 0, []⟩, 9, 15000⟩ =
    .ok ⟨⟨50, 20, [[4, vt, 0, 20, 10, 0, 0, 1, 255, 0, 0, 9, 0, 0, 0, 0, 0, 7, 0, 0]]⟩, 10, 10000⟩ := ⟨_, rfl, by decide⟩

/-- `n` HNA intervals of a node that has no network to announce -/
def quiet (c : Cfg) (junk : List Nat) (valtime reltime period : Nat) : Nat → HnaState → Res HnaState
  | 0, s => .ok s
  | n + 1, s =>
    match hna c junk valtime reltime period [] s with
    | .ok s' => quiet c junk valtime reltime period n s'
    | .exit => .exit
    | .ub => .ub

/-- **C68, the window** (IPv4): of `n` intervals without any network, the first `zeroTime / period` (rounded up) have one
withdrawal each, the others nothing. -/
theorem C68_window (c : Cfg) (junk : List Nat) (valtime reltime period : Nat) (hper : 0 < period)
    (hj : junk.length = 16) (hm : c.main.length = 4) (h4 : c.v6 = false) (ha : c.sgwActive = true) (n : Nat) :
    ∀ s : HnaState, s.seq < 65536 → s.out.pend ≤ s.out.max → 20 ≤ s.out.max → s.zeroTime < 4294967296 →
    ∃ s', quiet c junk valtime reltime period n s = .ok s' ∧ s'.zeroTime = s.zeroTime - n * period ∧
      s'.out.msgs.length = s.out.msgs.length + min n ((s.zeroTime + (period - 1)) / period) := by
  induction n with
  | zero => intro s _ _ _ _; exact ⟨s, rfl, by simp, by simp⟩
  | succ n ih =>
    intro s hs hp hr hz
    by_cases h0 : s.zeroTime = 0
    · have hstep : hna c junk valtime reltime period [] s = .ok s := by
        unfold hna; rw [if_pos rfl, if_pos h0]
      obtain ⟨s', q1, q2, q3⟩ := ih s hs hp hr hz
      refine ⟨s', by rw [quiet, hstep]; exact q1, ?_, ?_⟩
      · rw [q2, h0]; simp
      · rw [q3, h0]
        have : (0 + (period - 1)) / period = 0 := Nat.div_eq_of_lt (by omega)
        rw [this]; simp
    · obtain ⟨vt, hvt, -⟩ := Mantissa.C01_encoder_total s.zeroTime (by omega)
      obtain ⟨s1, m, mask, k1, k2, -, -, -, k5, k6, k7, k8⟩ := C68_withdrawn_partial c junk valtime reltime period vt s
        ⟨true, [], []⟩ hj hm h4 hs hp hr rfl ha h0 hvt
      obtain ⟨s', q1, q2, q3⟩ := ih s1 k8 k7 (by omega) (by omega)
      refine ⟨s', by rw [quiet, k1]; exact q1, ?_, ?_⟩
      · rw [q2, k5, Nat.add_mul]; omega
      · rw [q3, k2, k5, List.length_append, List.length_singleton]
        have e1 : (s.zeroTime + (period - 1)) / period = (s.zeroTime - 1) / period + 1 := by
          rw [show s.zeroTime + (period - 1) = s.zeroTime - 1 + period by omega, Nat.add_div_right _ hper]
        have e2 : (s.zeroTime - period + (period - 1)) / period = (s.zeroTime - 1) / period := by
          by_cases hle : s.zeroTime ≤ period
          · rw [Nat.div_eq_of_lt (by omega), Nat.div_eq_of_lt (by omega)]
          · rw [show s.zeroTime - period + (period - 1) = s.zeroTime - 1 by omega]
        rw [e1, e2]; omega

private theorem decode_zero : ∀ b < 256, (GwSpeed.decode b = 0 ↔ b = 0) := by decide +kernel

/-- C68, reception: exactly the announcements without speeds, or with a zero for one of them, make a receiver drop the
gateway; it is not necessary that both are zero. -/
theorem C68_zero_speed_drops (v6 : Bool) (plen : Nat) (mask : List Nat) (old : List Nat × Nat) (hb : ∀ b ∈ mask, b < 256) :
    dropped (readGw v6 plen mask old) = true ↔
      mask.getD ((plen + 7) / 8 + 1) 0 % 2 = 0 ∨ mask.getD ((plen + 7) / 8 + 2) 0 = 0 ∨ mask.getD ((plen + 7) / 8 + 3) 0 = 0 := by
  have hg : ∀ i, mask.getD i 0 < 256 := by
    intro i
    rw [List.getD_eq_getElem?_getD]
    cases h : mask[i]? with
    | none => simp
    | some b => exact hb b (List.mem_of_getElem? h)
  have h1 := decode_zero _ (hg ((plen + 7) / 8 + 2))
  have h2 := decode_zero _ (hg ((plen + 7) / 8 + 3))
  simp only [dropped, readGw, hnaOff, Bool.or_eq_true, beq_iff_eq]
  simp only [Nat.testBit_zero]
  have h3 : mask.getD ((plen + 7) / 8 + 1) 0 % 2 = 0 ∨ mask.getD ((plen + 7) / 8 + 1) 0 % 2 = 1 := by omega
  rcases h3 with h3 | h3 <;> simp only [h3]
  · simp
  · simp only [decide_true, if_true]
    rw [h1, h2]; omega

example : dropped (readGw false 0 [0, 7, 0, 3] ([], 0)) = true ∧ dropped (readGw false 0 [0, 7, 89, 0] ([], 0)) = true ∧
    dropped (readGw false 0 [0, 7, 89, 3] ([], 0)) = false := by decide

/-- **C68 is false for IPv6**: the withdrawal is the network ::/0, which is not one of the prefixes that stand for a
gateway; so its netmask is not marked, and every receiver registers a route to everything through the node that
has just lost its uplink. -/
theorem C68_ipv6_default_route (c : Cfg) (junk : List Nat) (valtime reltime period vt : Nat) (s : HnaState)
    (r : Rx) (hj : junk.length = 16) (hm : c.main.length = 16) (h6 : c.v6 = true) (hs : s.seq < 65536)
    (hp : s.out.pend ≤ s.out.max) (hroom : 56 ≤ s.out.max)
    (ha : c.sgwActive = true) (hz : s.zeroTime ≠ 0) (hvt : Mantissa.relToMe s.zeroTime = some vt)
    (hr : Foreign r [(List.replicate 16 0, 0)]) :
    ∃ s' m, hna c junk valtime reltime period [] s = .ok s' ∧ s'.out.msgs = s.out.msgs ++ [m] ∧
      inputHna true r true m = some (some (c.main, [.update (List.replicate 16 0) 0])) ∧ m.getD 1 0 = vt := by
  have hm' : c.main.length = ipsize c.v6 := by rw [h6]; exact hm
  have hze : zeroEntry c = (List.replicate 16 0, 0) := by unfold zeroEntry; rw [h6]; rfl
  have hpl : ∀ e ∈ [zeroEntry c], (c.sgwActive && isInetGw c.v6 e.1 e.2) = false := by
    intro e he
    rw [List.mem_singleton] at he
    rw [he, hze, h6, ha]; decide
  have hit := hnaItems_plain c junk true hj [zeroEntry c] (by
    intro e he
    rw [List.mem_singleton] at he
    rw [he, hze]; exact Nat.zero_le _) hpl
  obtain ⟨o', seq', ms, evs, k1, kq, k2, k3, kp, k4, k5, k6, k8, k7⟩ :=
    hnaList_ok c junk vt true [zeroEntry c] s.out s.seq [(((zeroEntry c).1, maskOf c.v6 (zeroEntry c).2), false)]
      hit
      (by
        intro i hi
        rw [List.mem_singleton] at hi
        rw [hi]
        exact ⟨by simp [zeroEntry], (maskOf_spec c.v6 _ (by rw [hze]; exact Nat.zero_le _)).1⟩)
      hm' hs hp (by rw [h6]; exact hroom) (Or.inl h6) r
  have hlen := k8 (Nat.le_refl _)
  obtain ⟨m, rfl⟩ : ∃ m, ms = [m] := by
    match ms, hlen with
    | [m], _ => exact ⟨m, rfl⟩
  have hevs : evs.length = 1 := by
    have := congrArg List.length k4
    simpa using this.symm
  obtain ⟨ev, rfl⟩ : ∃ ev, evs = [ev] := by
    match evs, hevs with
    | [ev], _ => exact ⟨ev, rfl⟩
  have hf := hr (List.replicate 16 0, 0) (List.mem_singleton.2 rfl)
  have hev : ev = [.update (List.replicate 16 0) 0] := by
    have h := pair_plain c.v6 r (zeroEntry c) (by rw [hze]; exact Nat.zero_le _) (by rw [hze]; exact hf.1) (by rw [hze]; exact hf.2)
    have k5' : ev = [hnaPair c.v6 r (zeroEntry c).1 (maskOf c.v6 (zeroEntry c).2)] := by
      simpa using k5
    rw [k5', h, hze]
  refine ⟨⟨o', seq', if s.zeroTime ≤ period then 0 else s.zeroTime - period⟩, m, ?_, k2, ?_, (k7 m (List.mem_singleton.2 rfl)).2.2⟩
  · rw [withdraw_run c junk valtime reltime period s ha hz, withdraw, hvt]
    simp only [k1]
  · rw [h6, hev] at k4
    simpa using k4

end Verif.BuildMsg
