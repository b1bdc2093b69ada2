import Verif.PudMsgModel
/-
C125: the messages of the pud plugin are sound, datagrams from the downlink are taken
apart correctly, and recent messages are recognised without disturbing the flooding.
-/
namespace Verif.PudMsg

/-! ### Specification -/

/-- Which messages of a sequence are new, if the last `n` new ones are remembered. -/
def fresh (n : Nat) : List Key → List Key → List Bool
  | _, [] => []
  | h, x :: xs => if x ∈ h.take n then false :: fresh n h xs else true :: fresh n (x :: h) xs

/-- What the ring says of a sequence. -/
def run : Ring → List Key → List Bool
  | _, [] => []
  | r, x :: xs => (filter r x).1 :: run (filter r x).2 xs

/-- A message in a datagram. -/
structure Part where
  typ : Nat
  v6 : Bool
  body : List Nat

/-- A datagram. -/
def encode : List Part → List Nat
  | [] => []
  | p :: ps => header p.typ p.body.length p.v6 ++ p.body ++ encode ps

/-- The memory holds a string of bytes from an address on. -/
def Holds (mem : Nat → Nat) (off : Nat) (b : List Nat) : Prop := ∀ i, i < b.length → mem (off + i) = b.getD i 0

/-! ### Position updates -/

private theorem put_in (m : Nat → Nat) (off : Nat) (b : List Nat) (i : Nat) (h1 : off ≤ i) (h2 : i < off + b.length) :
    put m off b i = b.getD (i - off) 0 := by
  unfold put; rw [if_pos ⟨h1, h2⟩]

private theorem put_out (m : Nat → Nat) (off : Nat) (b : List Nat) (i : Nat) (h : i < off ∨ off + b.length ≤ i) :
    put m off b i = m i := by
  unfold put; rw [if_neg (by omega)]

private theorem getD_replicate (n i : Nat) : (List.replicate n 0).getD i 0 = 0 := by
  rw [List.getD_eq_getElem?_getD, List.getElem?_replicate]
  split <;> rfl

private theorem put_zero (m : Nat → Nat) (off n i : Nat) (h1 : off ≤ i) (h2 : i < off + n) :
    put m off (List.replicate n 0) i = 0 := by
  rw [put_in _ _ _ _ h1 (by rw [List.length_replicate]; exact h2), getD_replicate]

private theorem pad_below (m : Nat → Nat) (id : Id) (i : Nat) (h : i < 22 + nodeLength id) : pad m id i = m i := by
  unfold pad
  split
  · exact put_out _ _ _ _ (Or.inl h)
  · rfl

private theorem base_fixed (old : Nat → Nat) (fixed : List Nat) (hf : fixed.length = 21) (i : Nat) (h : i < 21) :
    put (put old 0 (List.replicate 23 0)) 0 fixed i = fixed.getD i 0 := by
  rw [put_in _ _ _ _ (by omega) (by omega)]
  rfl

private theorem base_zero (old : Nat → Nat) (fixed : List Nat) (hf : fixed.length = 21) (i : Nat) (h : 21 ≤ i) (h2 : i < 23) :
    put (put old 0 (List.replicate 23 0)) 0 fixed i = 0 := by
  rw [put_out _ _ _ _ (by omega), put_zero _ _ _ _ (by omega) (by omega)]

private theorem base_old (old : Nat → Nat) (fixed : List Nat) (hf : fixed.length = 21) (i : Nat) (h : 23 ≤ i) :
    put (put old 0 (List.replicate 23 0)) 0 fixed i = old i := by
  rw [put_out _ _ _ _ (by omega), put_out _ _ _ _ (by rw [List.length_replicate]; omega)]

/-- The fixed part, the type and the node id are where the receiver looks for them. -/
theorem C125_layout (old : Nat → Nat) (fixed : List Nat) (hf : fixed.length = 21) :
    (∀ id, Holds (payload old fixed id) 0 fixed) ∧
    (∀ typ, payload old fixed (.address typ) 21 = typ) ∧
    (∀ typ b, payload old fixed (.bytes typ b) 21 = typ ∧ Holds (payload old fixed (.bytes typ b)) 22 b) ∧
    (∀ b, payload old fixed (.name b) 21 = 3 ∧ Holds (payload old fixed (.name b)) 22 (b ++ [0])) := by
  refine ⟨?_, ?_, ?_, ?_⟩
  · intro id i hi
    rw [Nat.zero_add]
    unfold payload
    rw [pad_below _ _ _ (by omega)]
    cases id with
    | address typ => simp only [putId]; rw [put_out _ _ _ _ (by omega), base_fixed _ _ hf _ (by omega)]
    | bytes typ b =>
      simp only [putId]
      rw [put_out _ _ _ _ (by omega), put_out _ _ _ _ (by omega), base_fixed _ _ hf _ (by omega)]
    | name b =>
      simp only [putId]
      rw [put_out _ _ _ _ (by omega), put_out _ _ _ _ (by omega), put_out _ _ _ _ (by omega),
        base_fixed _ _ hf _ (by omega)]
  · intro typ
    unfold payload
    rw [pad_below _ _ _ (by omega)]
    simp only [putId]
    rw [put_in _ _ _ _ (by omega) (by show 21 < 21 + 1; omega)]
    rfl
  · intro typ b
    constructor
    · unfold payload
      rw [pad_below _ _ _ (by omega)]
      simp only [putId]
      rw [put_out _ _ _ _ (by omega), put_in _ _ _ _ (by omega) (by show 21 < 21 + 1; omega)]
      rfl
    · intro i hi
      unfold payload
      rw [pad_below _ _ _ (by show 22 + i < 22 + (1 + b.length); omega)]
      simp only [putId]
      rw [put_in _ _ _ _ (by omega) (by omega)]
      congr 1
      omega
  · intro b
    constructor
    · unfold payload
      rw [pad_below _ _ _ (by omega)]
      simp only [putId]
      rw [put_out _ _ _ _ (by omega), put_out _ _ _ _ (by omega), put_in _ _ _ _ (by omega) (by show 21 < 21 + 1; omega)]
      rfl
    · intro i hi
      rw [List.length_append] at hi
      have hi' : i < b.length + 1 := hi
      unfold payload
      rw [pad_below _ _ _ (by show 22 + i < 22 + (1 + b.length); omega)]
      simp only [putId]
      by_cases hib : i < b.length
      · rw [put_out _ _ _ _ (by omega), put_in _ _ _ _ (by omega) (by omega), show 22 + i - 22 = i by omega,
          List.getD_eq_getElem?_getD, List.getD_eq_getElem?_getD, List.getElem?_append_left hib]
      · have : i = b.length := by omega
        subst this
        rw [put_in _ _ _ _ (by omega) (by show 22 + b.length < 22 + b.length + 1; omega), Nat.sub_self]
        simp

example : (List.range 32).map (payload (fun _ => 170) (List.replicate 21 1) (.bytes 1 [9, 9, 9, 9, 9, 9, 9])) =
    [1, 1, 1, 1, 1, 1, 1, 1, 1, 1, 1, 1, 1, 1, 1, 1, 1, 1, 1, 1, 1, 1, 9, 9, 9, 9, 9, 9, 9, 170, 0, 0] := by
  decide

/-- Behind the node id the message is filled with zeros, if the id is the address or a
name, or if there is nothing to fill. -/
theorem C125_padding_partial (old : Nat → Nat) (fixed : List Nat) :
    (∀ typ i, 22 ≤ i → i < aligned (.address typ) → payload old fixed (.address typ) i = 0) ∧
    (∀ b i, 22 + b.length ≤ i → i < aligned (.name b) → payload old fixed (.name b) i = 0) ∧
    (∀ typ b, (22 + b.length) % 4 = 0 → aligned (.bytes typ b) = 22 + b.length) ∧
    (∀ typ b i, 22 + b.length < i → i < aligned (.bytes typ b) → payload old fixed (.bytes typ b) i = 0) := by
  refine ⟨?_, ?_, ?_, ?_⟩
  · intro typ i h1 h2
    have h24 : aligned (.address typ) = 24 := by simp [aligned, nodeLength]
    rw [h24] at h2
    show pad _ _ i = 0
    unfold pad
    rw [if_pos (by show (21 + 0) % 4 ≠ 0; omega)]
    show put _ (22 + 0) (List.replicate (4 - 21 % 4) 0) i = 0
    rw [put_zero _ _ _ _ (by omega) (by omega)]
  · intro b i h1 h2
    have hn : nodeLength (.name b) = 1 + b.length := rfl
    unfold payload pad
    unfold aligned at h2
    rw [hn] at h2 ⊢
    by_cases hz : i = 22 + b.length
    · have hput : putId (put (put old 0 (List.replicate 23 0)) 0 fixed) (.name b) i = 0 := by
        simp only [putId]
        rw [put_in _ _ _ _ (by omega) (by show i < 22 + b.length + 1; omega), hz, Nat.sub_self]
        rfl
      by_cases hr : (21 + (1 + b.length)) % 4 ≠ 0
      · rw [if_pos hr, put_out _ _ _ _ (by omega), hput]
      · rw [if_neg hr, hput]
    · by_cases hr : (21 + (1 + b.length)) % 4 ≠ 0
      · rw [if_pos hr] at h2
        rw [if_pos hr, put_zero _ _ _ _ (by omega) (by omega)]
      · rw [if_neg hr] at h2
        omega
  · intro typ b h
    show (if (21 + (1 + b.length)) % 4 ≠ 0 then _ else 21 + (1 + b.length)) = _
    rw [if_neg (by omega)]
    omega
  · intro typ b i h1 h2
    have hn : nodeLength (.bytes typ b) = 1 + b.length := rfl
    unfold payload pad
    unfold aligned at h2
    rw [hn] at h2 ⊢
    by_cases hr : (21 + (1 + b.length)) % 4 ≠ 0
    · rw [if_pos hr] at h2
      rw [if_pos hr, put_zero _ _ _ _ (by omega) (by omega)]
    · rw [if_neg hr] at h2
      omega

/-- Otherwise the first byte to fill is what was in memory before (telephone and tetra
numbers, UUIDs, MMSI, URN, MIP and 192, 193), and the byte behind the message is
overwritten. -/
theorem C125_padding_negation (old : Nat → Nat) (fixed : List Nat) (hf : fixed.length = 21) (typ : Nat) (b : List Nat)
    (h1 : 1 ≤ b.length) (h2 : (22 + b.length) % 4 ≠ 0) :
    22 + b.length < aligned (.bytes typ b) ∧
    payload old fixed (.bytes typ b) (22 + b.length) = old (22 + b.length) ∧
    payload old fixed (.bytes typ b) (aligned (.bytes typ b)) = 0 := by
  have hn : nodeLength (.bytes typ b) = 1 + b.length := rfl
  have ha : aligned (.bytes typ b) = 21 + (1 + b.length) + (4 - (21 + (1 + b.length)) % 4) := by
    unfold aligned
    rw [hn, if_pos (by omega)]
  rw [ha]
  refine ⟨by omega, ?_, ?_⟩
  · unfold payload
    rw [pad_below _ _ _ (by rw [hn]; omega)]
    simp only [putId]
    rw [put_out _ _ _ _ (by omega), put_out _ _ _ _ (by right; show 21 + 1 ≤ _; omega), base_old _ _ hf _ (by omega)]
  · unfold payload pad
    rw [hn, if_pos (by omega), put_zero _ _ _ _ (by omega) (by omega)]

example : (22 + [1, 2, 3, 4, 5, 6, 7].length) % 4 ≠ 0 := by decide

/-! ### Datagrams -/

private theorem holds_append {mem : Nat → Nat} {off : Nat} {a b : List Nat} (h : Holds mem off (a ++ b)) :
    Holds mem off a ∧ Holds mem (off + a.length) b := by
  constructor
  · intro i hi
    rw [h i (by rw [List.length_append]; omega), List.getD_eq_getElem?_getD, List.getD_eq_getElem?_getD,
      List.getElem?_append_left hi]
  · intro i hi
    rw [Nat.add_assoc, h (a.length + i) (by rw [List.length_append]; omega), List.getD_eq_getElem?_getD,
      List.getD_eq_getElem?_getD, List.getElem?_append_right (by omega), show a.length + i - a.length = i by omega]

private theorem read_of_holds {mem : Nat → Nat} {off : Nat} {b : List Nat} (h : Holds mem off b) :
    read mem off b.length = b := by
  unfold read
  apply List.ext_getElem
  · simp
  · intro i h1 h2
    simp only [List.getElem_map, List.getElem_range]
    rw [h i h2, List.getD_eq_getElem?_getD, List.getElem?_eq_getElem h2]
    rfl

private theorem loop_parts (v6 : Bool) (mem : Nat → Nat) : ∀ (ps : List Part) (idx fuel : Nat),
    (∀ p ∈ ps, p.body.length ≤ 65531) → Holds mem idx (encode ps) → ps.length < fuel →
    ∃ r, loop v6 mem (idx + (encode ps).length) fuel idx = some r ∧
      r.map (fun p => read mem p.1 p.2) =
        (ps.filter (fun p => decide (p.typ = 0) && (p.v6 == v6))).map (fun p => p.body) := by
  intro ps
  induction ps with
  | nil =>
    intro idx fuel _ _ hf
    obtain ⟨f, rfl⟩ : ∃ f, fuel = f + 1 := ⟨fuel - 1, by simp at hf; omega⟩
    refine ⟨[], ?_, rfl⟩
    unfold loop
    show (if idx < idx + 0 then _ else some []) = _
    rw [if_neg (by omega)]
  | cons p ps ih =>
    intro idx fuel hb hh hf
    obtain ⟨f, rfl⟩ : ∃ f, fuel = f + 1 := ⟨fuel - 1, by simp at hf; omega⟩
    have hbl := hb p (List.mem_cons_self)
    unfold encode at hh
    obtain ⟨h12, h3⟩ := holds_append hh
    obtain ⟨h1, h2⟩ := holds_append h12
    have hhd : (header p.typ p.body.length p.v6).length = 4 := rfl
    have m0 : mem idx = p.typ := by have := h1 0 (by rw [hhd]; omega); simpa [header] using this
    have m1 : mem (idx + 1) = p.body.length / 256 % 256 := by
      have := h1 1 (by rw [hhd]; omega); simpa [header] using this
    have m2 : mem (idx + 2) = p.body.length % 256 := by
      have := h1 2 (by rw [hhd]; omega); simpa [header] using this
    have m3 : mem (idx + 3) = if p.v6 then 1 else 0 := by
      have := h1 3 (by rw [hhd]; omega); simpa [header] using this
    have hlen : lenAt mem idx = p.body.length := by
      unfold lenAt
      rw [m1, m2]
      omega
    have hup : upLen mem idx = p.body.length + 4 := by
      unfold upLen
      rw [hlen]
      omega
    rw [hhd] at h2
    rw [List.length_append, hhd] at h3
    have hel : (encode (p :: ps)).length = 4 + p.body.length + (encode ps).length := by
      show (header _ _ _ ++ p.body ++ encode ps).length = _
      rw [List.length_append, List.length_append, hhd]
    rw [hel]
    obtain ⟨r, hr1, hr2⟩ := ih (idx + (4 + p.body.length)) f (fun q hq => hb q (List.mem_cons_of_mem _ hq)) h3
      (by simp at hf; omega)
    rw [show idx + (4 + p.body.length + (encode ps).length) = idx + (4 + p.body.length) + (encode ps).length by omega]
    have hw : wanted v6 mem idx = (decide (p.typ = 0) && (p.v6 == v6)) := by
      unfold wanted
      rw [m0, m3]
      cases p.v6 <;> rfl
    unfold loop
    rw [if_pos (by omega), if_neg (by omega), hup, hw, hlen, show idx + (p.body.length + 4) = idx + (4 + p.body.length) by omega,
      hr1]
    rw [List.filter_cons]
    cases hc : (decide (p.typ = 0) && (p.v6 == v6)) with
    | true =>
      refine ⟨_, rfl, ?_⟩
      rw [if_pos rfl, List.map_cons, List.map_cons, hr2]
      congr 1
      exact read_of_holds h2
    | false =>
      refine ⟨r, rfl, ?_⟩
      rw [hr2, if_neg (by simp)]

/-- A datagram that consists of messages is taken apart into its position updates of the
right address family, whatever follows in memory. -/
theorem C125_downlink_partial (v6 : Bool) (mem : Nat → Nat) (ps : List Part)
    (hb : ∀ p ∈ ps, p.body.length ≤ 65531) (hh : Holds mem 0 (encode ps)) :
    ∃ r, loop v6 mem (encode ps).length (ps.length + 1) 0 = some r ∧
      r.map (fun p => read mem p.1 p.2) =
        (ps.filter (fun p => decide (p.typ = 0) && (p.v6 == v6))).map (fun p => p.body) := by
  have := loop_parts v6 mem ps 0 (ps.length + 1) hb hh (by omega)
  rwa [Nat.zero_add] at this

/-- A mixed datagram. -/
example : loop false (fun i => [0, 0, 2, 0, 7, 8, 1, 0, 1, 0, 9, 0, 0, 1, 1, 5, 0, 0, 1, 0, 6].getD i 170) 21 9 0 =
    some [(4, 2), (20, 1)] := by decide

/-- The datagram that a node sends to its uplink gives the position update of the node. -/
theorem C125_uplink (v6 : Bool) (mem : Nat → Nat) (update leader : List Nat) (h1 : update.length ≤ 65531)
    (h2 : leader.length ≤ 65531) (hh : Holds mem 0 (uplink v6 update leader)) :
    ∃ r, loop v6 mem (uplink v6 update leader).length 3 0 = some r ∧
      r.map (fun p => read mem p.1 p.2) = [update] := by
  have he : encode [⟨0, v6, update⟩, ⟨1, v6, leader⟩] = uplink v6 update leader := by
    unfold uplink
    simp only [encode, List.append_nil]
  obtain ⟨r, hr1, hr2⟩ := C125_downlink_partial v6 mem [⟨0, v6, update⟩, ⟨1, v6, leader⟩] (by
    intro p hp
    simp only [List.mem_cons, List.not_mem_nil, or_false] at hp
    rcases hp with rfl | rfl
    · exact h1
    · exact h2) (by rw [he]; exact hh)
  rw [he] at hr1
  refine ⟨r, hr1, ?_⟩
  rw [hr2]
  simp

example : uplink true [1, 2] [3] = [0, 0, 2, 1, 1, 2, 1, 0, 1, 1, 3] := by decide

/-- A datagram of one byte or more with the length field 65532 makes the daemon
loop for ever. -/
theorem C125_hang_negation (v6 : Bool) (mem : Nat → Nat) (count : Nat) (hc : 1 ≤ count) (h1 : mem 1 = 255) (h2 : mem 2 = 252)
    (fuel : Nat) : loop v6 mem count fuel 0 = none := by
  have hup : upLen mem 0 = 0 := by
    unfold upLen lenAt
    rw [h1, h2]
  induction fuel with
  | zero => rfl
  | succ fuel ih =>
    unfold loop
    rw [if_pos (by omega), if_neg (by omega), hup, ih]
    cases wanted v6 mem 0 <;> rfl

example : loop false (fun i => [1, 255, 252, 0].getD i 0) 4 1000 0 = none := by decide +kernel

/-- Without such a length field it ends. -/
theorem C125_ends_partial (v6 : Bool) (mem : Nat → Nat) (count : Nat) (hm : ∀ i, mem i < 256)
    (h : ∀ i, i < count → ¬ (mem (i + 1) = 255 ∧ mem (i + 2) = 252)) :
    ∃ r, loop v6 mem count (count + 1) 0 = some r := by
  have key : ∀ (fuel idx : Nat), count < idx + fuel → ∃ r, loop v6 mem count fuel idx = some r ∨ fuel = 0 := by
    intro fuel
    induction fuel with
    | zero => intro idx _; exact ⟨[], Or.inr rfl⟩
    | succ fuel ih =>
      intro idx hlt
      unfold loop
      by_cases hi : idx < count
      · rw [if_pos hi]
        by_cases hc : count < idx + upLen mem idx
        · rw [if_pos hc]; exact ⟨[], Or.inl rfl⟩
        · rw [if_neg hc]
          have hpos : 1 ≤ upLen mem idx := by
            have hx := h idx hi
            have a1 := hm (idx + 1)
            have a2 := hm (idx + 2)
            unfold upLen lenAt
            omega
          obtain ⟨r, hr⟩ := ih (idx + upLen mem idx) (by omega)
          rcases hr with hr | hr
          · rw [hr]
            cases wanted v6 mem idx with
            | true => exact ⟨_, Or.inl rfl⟩
            | false => exact ⟨_, Or.inl rfl⟩
          · omega
      · rw [if_neg hi]; exact ⟨[], Or.inl rfl⟩
  obtain ⟨r, hr⟩ := key (count + 1) 0 (by omega)
  rcases hr with hr | hr
  · exact ⟨r, hr⟩
  · omega

example : ∀ i, i < 4 → ¬ ([1, 255, 250, 0].getD (i + 1) 0 = 255 ∧ [1, 255, 250, 0].getD (i + 2) 0 = 252) := by decide

/-- The header is read where nothing has been received: of a datagram of one byte a
message of 65533 bytes may be passed on.  A message without any bytes is passed on, too. -/
theorem C125_header_negation :
    loop false (fun i => [0, 255, 253, 0].getD i 0) 1 9 0 = some [(4, 65533)] ∧
    loop false (fun i => [0, 0, 0, 0].getD i 0) 1 9 0 = some [] ∧
    loop false (fun i => [0, 0, 0, 0].getD i 0) 4 9 0 = some [(4, 0)] := by decide +kernel

/-! ### Recent messages -/

/-- The ring holds the history `h`, newest first. -/
private structure Rep (n : Nat) (r : Ring) (h : List Key) : Prop where
  size : r.size = n
  newest : r.newest < n
  count : r.count = min h.length n
  slot : ∀ i, i < r.count → r.slot ((r.newest + i) % n) = h.getD i (0, 0)

private theorem rep_recent {n : Nat} {r : Ring} {h : List Key} (hr : Rep n r h) (x : Key) :
    isRecent r x = true ↔ x ∈ h.take n := by
  have key : ∀ (m j : Nat), j + m = r.count →
      (inRing r x m ((r.newest + j) % n) = true ↔ ∃ i, j ≤ i ∧ i < r.count ∧ h.getD i (0, 0) = x) := by
    intro m
    induction m with
    | zero =>
      intro j hj
      unfold inRing
      constructor
      · intro hf; cases hf
      · rintro ⟨i, h1, h2, _⟩; omega
    | succ m ih =>
      intro j hj
      unfold inRing
      rw [hr.slot j (by omega)]
      by_cases he : h.getD j (0, 0) = x
      · rw [if_pos he]
        exact ⟨fun _ => ⟨j, Nat.le_refl _, by omega, he⟩, fun _ => rfl⟩
      · rw [if_neg he, hr.size]
        have hmod : ((r.newest + j) % n + 1) % n = (r.newest + (j + 1)) % n := by
          rw [Nat.mod_add_mod]
          rfl
        rw [hmod, ih (j + 1) (by omega)]
        constructor
        · rintro ⟨i, h1, h2, h3⟩; exact ⟨i, by omega, h2, h3⟩
        · rintro ⟨i, h1, h2, h3⟩
          refine ⟨i, ?_, h2, h3⟩
          by_cases hij : i = j
          · subst hij; exact absurd h3 he
          · omega
  unfold isRecent
  have h0 := key r.count 0 (by omega)
  rw [Nat.add_zero, Nat.mod_eq_of_lt hr.newest] at h0
  rw [h0]
  have hc := hr.count
  constructor
  · rintro ⟨i, _, h2, h3⟩
    rw [List.mem_iff_getElem?]
    refine ⟨i, ?_⟩
    rw [List.getElem?_take, if_pos (by omega), List.getElem?_eq_getElem (by omega)]
    rw [List.getD_eq_getElem?_getD, List.getElem?_eq_getElem (by omega)] at h3
    exact congrArg some h3
  · intro hm
    rw [List.mem_iff_getElem?] at hm
    obtain ⟨i, hi⟩ := hm
    rw [List.getElem?_take] at hi
    by_cases hin : i < n
    · rw [if_pos hin] at hi
      have hlt : i < h.length := by
        by_cases hlt : i < h.length
        · exact hlt
        · rw [List.getElem?_eq_none (by omega)] at hi; cases hi
      refine ⟨i, by omega, by omega, ?_⟩
      rw [List.getD_eq_getElem?_getD, hi]
      rfl
    · rw [if_neg hin] at hi; cases hi

private theorem rep_add {n : Nat} {r : Ring} {h : List Key} (hr : Rep n r h) (x : Key) : Rep n (addRing r x) (x :: h) := by
  have hn := hr.newest
  have hs := hr.size
  have hc := hr.count
  have hinc : incoming r = (r.newest + n - 1) % n := by unfold incoming; rw [hs]
  have hinc2 : incoming r = if r.newest = 0 then n - 1 else r.newest - 1 := by
    rw [hinc]
    by_cases h0 : r.newest = 0
    · rw [if_pos h0, h0, Nat.zero_add, Nat.mod_eq_of_lt (by omega)]
    · rw [if_neg h0, show r.newest + n - 1 = r.newest - 1 + n by omega, Nat.add_mod_right, Nat.mod_eq_of_lt (by omega)]
  have hlt : incoming r < n := by
    rw [hinc2]
    split <;> omega
  have hcount : (addRing r x).count = min (x :: h).length n := by
    show (if r.count < r.size then r.count + 1 else r.count) = _
    rw [hs, List.length_cons]
    by_cases hlt : r.count < n
    · rw [if_pos hlt]; omega
    · rw [if_neg hlt]; omega
  refine ⟨hs, hlt, hcount, ?_⟩
  intro i hi
  rw [hcount, List.length_cons] at hi
  show (if (incoming r + i) % n = incoming r then x else r.slot ((incoming r + i) % n)) = _
  cases i with
  | zero =>
    rw [Nat.add_zero, Nat.mod_eq_of_lt hlt, if_pos rfl]
    rfl
  | succ i =>
    have hne : (incoming r + (i + 1)) % n ≠ incoming r := by
      by_cases hw : incoming r + (i + 1) < n
      · rw [Nat.mod_eq_of_lt hw]; omega
      · rw [show incoming r + (i + 1) = incoming r + (i + 1) - n + n by omega, Nat.add_mod_right,
          Nat.mod_eq_of_lt (by omega)]
        omega
    rw [if_neg hne]
    have hidx : (incoming r + (i + 1)) % n = (r.newest + i) % n := by
      rw [hinc2]
      by_cases h0 : r.newest = 0
      · rw [if_pos h0, h0, show n - 1 + (i + 1) = 0 + i + n by omega, Nat.add_mod_right]
      · rw [if_neg h0, show r.newest - 1 + (i + 1) = r.newest + i by omega]
    rw [hidx, hr.slot i (by omega)]
    rfl

/-- A message counts as recent exactly if it is among the last `size` messages that did
not, for every sequence of messages. -/
theorem C125_dedup (size : Nat) (junk : Nat → Key) (hs : 1 ≤ size) (xs : List Key) :
    run (initRing size junk) xs = fresh size [] xs := by
  have key : ∀ (xs : List Key) (r : Ring) (h : List Key), Rep size r h → run r xs = fresh size h xs := by
    intro xs
    induction xs with
    | nil => intro r h _; rfl
    | cons x xs ih =>
      intro r h hr
      unfold run fresh filter
      have hrec := rep_recent hr x
      by_cases hx : x ∈ h.take size
      · rw [if_pos hx, if_pos (hrec.2 hx)]
        simp only []
        rw [ih r h hr]
      · rw [if_neg hx, if_neg (fun hc => hx (hrec.1 hc))]
        simp only []
        rw [ih _ _ (rep_add hr x)]
  apply key
  refine ⟨rfl, hs, ?_, ?_⟩
  · show 0 = min 0 size
    omega
  · intro i hi
    exact absurd hi (Nat.not_lt_zero _)

example : run (initRing 2 (fun _ => (1, 1))) [(1, 1), (2, 1), (1, 1), (3, 1), (1, 1)] = [true, true, false, true, true] := by
  decide

/-! ### Flooding -/

/-- What is forwarded: copies from nodes that have chosen this one, of messages that have
not been forwarded before, if the message can be shown and, with the list of recent
messages, no copy has been heard before. -/
theorem C125_forward_partial (dedup : Bool) (n : Node) (c : Copy) :
    forwards dedup n c = true ↔ c.selector = true ∧ c.key ∉ n.sent ∧ c.showable = true ∧
      (dedup = true → isRecent n.ring c.key = false) := by
  unfold forwards receive filter
  cases dedup with
  | false =>
    simp only [Bool.false_eq_true, if_false, Bool.and_eq_true, Bool.not_eq_true', List.contains_eq_mem, decide_eq_false_iff_not]
    constructor
    · rintro ⟨⟨h1, h2⟩, h3⟩; exact ⟨h2, h3, h1, fun h => by cases h⟩
    · rintro ⟨h1, h2, h3, _⟩; exact ⟨⟨h3, h1⟩, h2⟩
  | true =>
    cases hr : isRecent n.ring c.key with
    | true =>
      simp
    | false =>
      simp only [Bool.false_eq_true, if_false, if_true, Bool.and_eq_true, Bool.not_eq_true', List.contains_eq_mem,
        decide_eq_false_iff_not]
      constructor
      · rintro ⟨⟨h1, h2⟩, h3⟩; exact ⟨h2, h3, h1, fun _ => trivial⟩
      · rintro ⟨h1, h2, h3, _⟩; exact ⟨⟨h3, h1⟩, h2⟩

/-- No message is forwarded twice; and without the list of recent messages, exactly the
messages that can be shown and that arrive from a node that has chosen this one. -/
theorem C125_relay_partial (r : Ring) (cs : List Copy) :
    (∀ dedup, (cs.foldl (arrive dedup) ⟨r, []⟩).sent.Nodup) ∧
    (∀ k, k ∈ (cs.foldl (arrive false) ⟨r, []⟩).sent ↔ ∃ c ∈ cs, c.key = k ∧ c.selector = true ∧ c.showable = true) := by
  constructor
  · intro dedup
    have key : ∀ (cs : List Copy) (n : Node), n.sent.Nodup → (cs.foldl (arrive dedup) n).sent.Nodup := by
      intro cs
      induction cs with
      | nil => intro n h; exact h
      | cons c cs ih =>
        intro n h
        apply ih
        unfold arrive
        by_cases hf : forwards dedup n c = true
        · simp only [if_pos hf]
          exact List.nodup_cons.2 ⟨((C125_forward_partial _ _ _).1 hf).2.1, h⟩
        · simp only [if_neg hf]
          exact h
    exact key cs _ List.nodup_nil
  · intro k
    have key : ∀ (cs : List Copy) (n : Node), k ∈ (cs.foldl (arrive false) n).sent ↔
        k ∈ n.sent ∨ ∃ c ∈ cs, c.key = k ∧ c.selector = true ∧ c.showable = true := by
      intro cs
      induction cs with
      | nil => intro n; simp
      | cons c cs ih =>
        intro n
        rw [List.foldl_cons, ih]
        have hstep : k ∈ (arrive false n c).sent ↔
            k ∈ n.sent ∨ (c.key = k ∧ c.selector = true ∧ c.showable = true) := by
          have hfw := C125_forward_partial false n c
          unfold arrive
          by_cases hf : forwards false n c = true
          · simp only [if_pos hf]
            rw [List.mem_cons]
            have := hfw.1 hf
            constructor
            · rintro (rfl | h)
              · exact Or.inr ⟨rfl, this.1, this.2.2.1⟩
              · exact Or.inl h
            · rintro (h | h)
              · exact Or.inr h
              · exact Or.inl h.1.symm
          · simp only [if_neg hf]
            constructor
            · exact Or.inl
            · rintro (h | ⟨rfl, h2, h3⟩)
              · exact h
              · by_cases hm : c.key ∈ n.sent
                · exact hm
                · exact absurd (hfw.2 ⟨h2, hm, h3, fun h => by cases h⟩) hf
        rw [hstep]
        simp only [List.mem_cons, exists_eq_or_imp]
        constructor
        · rintro ((h | h) | h)
          · exact Or.inl h
          · exact Or.inr (Or.inl h)
          · exact Or.inr (Or.inr h)
        · rintro (h | h | h)
          · exact Or.inl (Or.inl h)
          · exact Or.inl (Or.inr h)
          · exact Or.inr h
    rw [key]
    simp

example : ([⟨(1, 1), false, true⟩, ⟨(1, 1), true, true⟩, ⟨(1, 1), true, true⟩, ⟨(2, 1), true, false⟩].foldl
    (arrive false) ⟨initRing 4 (fun _ => (0, 0)), []⟩).sent = [(1, 1)] := by decide

/-- The flooding is disturbed: if the first copy of a message comes from a node that has
not chosen this one, then it is not forwarded for the nodes that have; and a message
of another version is not forwarded at all. -/
theorem C125_flood_negation (size : Nat) (hs : 1 ≤ size) (junk : Nat → Key) (k : Key) :
    forwards true (arrive true ⟨initRing size junk, []⟩ ⟨k, false, true⟩) ⟨k, true, true⟩ = false ∧
    (arrive true ⟨initRing size junk, []⟩ ⟨k, false, true⟩).sent = [] ∧
    forwards true ⟨initRing size junk, []⟩ ⟨k, true, true⟩ = true ∧
    (∀ dedup n, forwards dedup n ⟨k, true, false⟩ = false) := by
  have hrec : isRecent (initRing size junk) k = false := rfl
  have hadd : isRecent (addRing (initRing size junk) k) k = true := by
    unfold isRecent
    have hc : (addRing (initRing size junk) k).count = 1 := by
      show (if 0 < size then 0 + 1 else 0) = 1
      rw [if_pos (by omega)]
    rw [hc]
    unfold inRing
    rw [if_pos]
    show (if incoming _ = incoming _ then k else _) = k
    rw [if_pos rfl]
  have harr : arrive true ⟨initRing size junk, []⟩ ⟨k, false, true⟩ = ⟨addRing (initRing size junk) k, []⟩ := by
    unfold arrive forwards receive filter
    simp only [hrec, Bool.false_eq_true, if_false, if_true, Bool.and_false, Bool.false_and]
  rw [harr]
  refine ⟨?_, rfl, ?_, ?_⟩
  · cases hf : forwards true ⟨addRing (initRing size junk) k, []⟩ ⟨k, true, true⟩ with
    | false => rfl
    | true =>
      have := ((C125_forward_partial _ _ _).1 hf).2.2.2 rfl
      rw [show isRecent (addRing (initRing size junk) k) k = true from hadd] at this
      cases this
  · rw [C125_forward_partial]
    exact ⟨rfl, by simp, rfl, fun _ => hrec⟩
  · intro dedup n
    cases hf : forwards dedup n ⟨k, true, false⟩ with
    | false => rfl
    | true => exact absurd ((C125_forward_partial _ _ _).1 hf).2.2.1 (by simp)

end Verif.PudMsg
