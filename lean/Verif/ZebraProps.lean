import Verif.ZebraLemmas

/-
Properties C107 to C110: the quagga plugin.
-/

namespace Verif.Zebra

/-! ### C107: receiving -/

/-- What the calls of `zclient_read`, one per second, return together. -/
def session (fuel : Nat) : Nat → List Rd → List Nat
  | 0, _ => []
  | n + 1, rds =>
    match clientRead fuel rds [] 0 with
    | .packets b rest => b ++ session fuel n rest
    | .nothing _ rest => session fuel n rest
    | .hang => []

/-- Bursts of data: the parts in which each is read, and then nothing more for now. -/
def bursts (bs : List (List (List Nat))) : List Rd :=
  (bs.map fun b => b.map Rd.data ++ [Rd.again]).flatten

private theorem session_nil (fuel n : Nat) : session fuel n [] = [] := by
  induction n with
  | zero => rfl
  | succ n ih => simp only [session, clientRead]; exact ih

private theorem session_burst (fuel : Nat) (hfuel : 65536 ≤ fuel) (rest : List Rd) (n : Nat)
    (out : List Nat) (hr : ∀ m, n ≤ m → session fuel m rest = out) :
    ∀ (c : Nat) (chunks pkts : List (List Nat)), chunks.length ≤ c → (∀ p ∈ pkts, Framed p) →
    chunks.flatten = pkts.flatten → pkts.flatten.length ≤ 65535 →
    ∀ m, n + c + 1 ≤ m →
      session fuel m (chunks.map Rd.data ++ (Rd.again :: rest)) = chunks.flatten ++ out := by
  intro c
  induction c with
  | zero =>
    intro chunks pkts hc _ _ _ m hm
    have h0 : chunks = [] := List.eq_nil_of_length_eq_zero (by omega)
    subst h0
    obtain ⟨k, hk⟩ : ∃ k, m = k + 1 := ⟨m - 1, by omega⟩
    subst hk
    simp only [List.map_nil, List.nil_append, session, clientRead, List.flatten_nil]
    exact hr _ (by omega)
  | succ c ih =>
    intro chunks pkts hc hf he hl m hm
    by_cases h0 : chunks = []
    · subst h0
      obtain ⟨k, hk⟩ : ∃ k, m = k + 1 := ⟨m - 1, by omega⟩
      subst hk
      simp only [List.map_nil, List.nil_append, session, clientRead, List.flatten_nil]
      exact hr _ (by omega)
    · obtain ⟨k, pkts', k1, k2, k3, k4, k5⟩ := clientRead_burst fuel hfuel (Rd.again :: rest) chunks [] []
        pkts h0 hf (by simpa using he) (by simpa using hl)
      obtain ⟨j, hj⟩ : ∃ j, m = j + 1 := ⟨m - 1, by omega⟩
      subst hj
      simp only [session]
      simp only [List.length_nil, List.nil_append] at k5
      rw [k5]
      simp only []
      have hsplit : chunks.flatten = (chunks.take k).flatten ++ (chunks.drop k).flatten := by
        rw [← List.flatten_append, List.take_append_drop]
      rw [ih (chunks.drop k) pkts' (by rw [List.length_drop]; omega) k3 k4 (by
        have := congrArg List.length hsplit
        rw [he] at this
        rw [← k4]
        simp only [List.length_append] at this
        omega) j (by omega)]
      rw [hsplit, List.append_assoc]

/-- **C107 (part).** All data is delivered, in order and once, for every sequence of bursts in which
data arrives, however each is cut into parts, if every burst holds whole packets and at most 65535
bytes.  Missing: bursts that end within a packet and longer bursts, where it fails, see below. -/
theorem C107_delivery_partial (fuel : Nat) (hfuel : 65536 ≤ fuel) (bs : List (List (List Nat)))
    (hb : ∀ b ∈ bs, b.flatten.length ≤ 65535 ∧
      ∃ pkts : List (List Nat), (∀ p ∈ pkts, Framed p) ∧ b.flatten = pkts.flatten) :
    ∃ n, ∀ m, n ≤ m → session fuel m (bursts bs) = (bs.map List.flatten).flatten := by
  induction bs with
  | nil => exact ⟨0, fun m _ => session_nil fuel m⟩
  | cons b bs ih =>
    obtain ⟨n, hn⟩ := ih (fun x hx => hb x (List.mem_cons_of_mem _ hx))
    obtain ⟨h1, pkts, h2, h3⟩ := hb b List.mem_cons_self
    refine ⟨n + b.length + 1, fun m hm => ?_⟩
    have := session_burst fuel hfuel (bursts bs) n _ hn b.length b pkts (Nat.le_refl _) h2 h3
      (by rw [← h3]; exact h1) m hm
    simpa [bursts] using this

example : ∃ n, ∀ m, n ≤ m →
    session 65536 m (bursts [[[0, 3], [7, 0, 5, 23, 1, 2], [0, 2]], [], [[0, 4, 9, 9]]]) =
      [0, 3, 7, 0, 5, 23, 1, 2, 0, 2, 0, 4, 9, 9] := by
  refine C107_delivery_partial 65536 (Nat.le_refl _) _ ?_
  intro b hb
  simp only [List.mem_cons, List.not_mem_nil, or_false] at hb
  rcases hb with rfl | rfl | rfl
  · exact ⟨by decide, [[0, 3, 7], [0, 5, 23, 1, 2], [0, 2]], by simp [Framed, be16], rfl⟩
  · exact ⟨by decide, [], by simp, rfl⟩
  · exact ⟨by decide, [[0, 4, 9, 9]], by simp [Framed, be16], rfl⟩

example : (session 100 5 (bursts [[[0, 3], [7, 0, 5, 23, 1, 2], [0, 2]], [], [[0, 4, 9, 9]]])) =
    [0, 3, 7, 0, 5, 23, 1, 2, 0, 2, 0, 4, 9, 9] := by decide +kernel

/-- **C107, false in general.** When the first part of a packet is all that has arrived so far, it is
thrown away, whatever the packet and wherever it is cut. -/
theorem C107_fragment_lost (fuel : Nat) (hfuel : 2 ≤ fuel) (p a c : List Nat) (rest : List Rd)
    (hp : Framed p) (hs : p = a ++ c) (hc : c ≠ []) (ha : a ≠ []) :
    clientRead fuel (Rd.data a :: Rd.again :: rest) [] 0 = .nothing true rest := by
  obtain ⟨k, hk⟩ : ∃ k, fuel = k + 2 := ⟨fuel - 2, by omega⟩
  subst hk
  have hcl : 0 < c.length := List.length_pos_iff.2 hc
  have hal : 0 < a.length := List.length_pos_iff.2 ha
  have hpl : p.length = a.length + c.length := by rw [hs, List.length_append]
  simp only [clientRead, List.nil_append]
  by_cases h2 : 0 + 2 ≤ a.length
  · have hg : get16 a 0 = p.length := by
      have := get16_at (b := a) (ext := c) (pre := []) (p := p) (more := []) (by simp [hs]) hp
        (by simpa using h2)
      simpa using this
    have hsc : scan a (k + 2) 0 = some p.length := by
      simp only [scan]
      rw [if_pos h2, hg, Nat.zero_add, Nat.mod_eq_of_lt hp.2.1, if_neg (by omega)]
    rw [hsc]
    simp only []
    rw [if_neg (by omega)]
  · have hsc : scan a (k + 2) 0 = some 0 := by
      simp only [scan]
      rw [if_neg h2]
    rw [hsc]
    simp only []
    rw [if_neg (by omega)]

/-- The end of a packet that came later is then taken for the start of one: of two packets none is
delivered. -/
example : (session 100 9 [.data [0, 6, 255, 1], .again, .data [0, 23, 0, 3, 7], .again]) = [] ∧
    (session 100 9 [.data [0, 6, 255, 1, 0, 23, 0, 3, 7], .again]) = [0, 6, 255, 1, 0, 23, 0, 3, 7] := by
  decide +kernel

/-- A packet of 17 bytes: a route without next hop in version 1. -/
private def pkt17 : List Nat := [0, 17, 255, 1, 0, 7, 1, 0, 8, 24, 10, 1, 2, 0, 0, 0, 1]

private theorem pkt17_framed : Framed pkt17 := by simp [Framed, pkt17, be16]

/-- Many such packets, read in parts of 4096 bytes as the buffer grows. -/
private def many (N : Nat) : List Nat := (List.replicate N pkt17).flatten

private def parts (N j n : Nat) : List (List Nat) :=
  (List.range n).map fun i => ((many N).drop (4096 * (j + i))).take 4096

private theorem rep_len (n : Nat) : (List.replicate n pkt17).flatten.length = 17 * n := by
  induction n with
  | zero => rfl
  | succ n ih =>
    rw [List.replicate_succ, List.flatten_cons, List.length_append, ih]
    simp [pkt17]
    omega

private theorem many_len (N : Nat) : (many N).length = 17 * N := by
  unfold many
  rw [rep_len]

private theorem parts_succ (N j n : Nat) :
    parts N j (n + 1) = ((many N).drop (4096 * j)).take 4096 :: parts N (j + 1) n := by
  unfold parts
  rw [List.range_succ_eq_map, List.map_cons, List.map_map]
  simp only [Nat.add_zero, List.cons.injEq, true_and]
  apply List.map_congr_left
  intro i _
  simp only [Function.comp_apply, Nat.succ_eq_add_one, show j + (i + 1) = j + 1 + i by omega]

private theorem hang_from (N : Nat) (hN : N = 4096) (fuel : Nat) (rest : List Rd) : ∀ (n j k : Nat), j + n = 16 → k ≤ 3855 →
    clientRead fuel ((parts N j (n + 1)).map Rd.data ++ rest) ((many N).take (4096 * j)) (17 * k) = .hang
  | 0, j, k, hj, hk => by
    have h16 : j = 16 := by omega
    subst h16
    rw [parts_succ]
    simp only [List.map_cons, List.cons_append, clientRead]
    rw [scan_long _ fuel _ (by omega)]
    rw [List.length_append, List.length_take, List.length_take, List.length_drop,
      many_len]
    omega
  | n + 1, j, k, hj, hk => by
    rw [parts_succ]
    simp only [List.map_cons, List.cons_append, clientRead]
    have hbuf : (many N).take (4096 * j) ++ ((many N).drop (4096 * j)).take 4096 = (many N).take (4096 * (j + 1)) := by
      rw [Nat.mul_succ, List.take_add]
    rw [hbuf]
    have hlen : ((many N).take (4096 * (j + 1))).length = 4096 * (j + 1) := by
      rw [List.length_take, many_len]
      omega
    have hpre : (List.replicate k pkt17).flatten.length = 17 * k := rep_len k
    have hmany : many N = (List.replicate k pkt17).flatten ++
        ((List.replicate (3855 - k) pkt17).flatten ++ (List.replicate 241 pkt17).flatten) := by
      unfold many
      rw [← List.flatten_append, ← List.flatten_append, List.replicate_append_replicate,
        List.replicate_append_replicate, show k + (3855 - k + 241) = N by omega]
    have hsc := scan_framed ((many N).take (4096 * (j + 1))) ((many N).drop (4096 * (j + 1)))
      (List.replicate 241 pkt17).flatten (List.replicate (3855 - k) pkt17) (List.replicate k pkt17).flatten
      fuel (fun p hp => by rw [List.eq_of_mem_replicate hp]; exact pkt17_framed)
      (by rw [List.take_append_drop, ← hmany])
      (by rw [rep_len, rep_len]; omega) (by rw [rep_len, rep_len, hlen]; omega)
    rw [hpre] at hsc
    rcases hsc with ⟨h1, _⟩ | ⟨qs, ps, h1, h2, h3⟩
    · rw [h1]
    · have hq : qs = List.replicate qs.length pkt17 := by
        rw [List.eq_replicate_iff]
        refine ⟨rfl, fun p hp => ?_⟩
        have : p ∈ List.replicate (3855 - k) pkt17 := by rw [h1]; exact List.mem_append_left _ hp
        exact List.eq_of_mem_replicate this
      have hql : qs.length ≤ 3855 - k := by
        have := congrArg List.length h1
        rw [List.length_replicate, List.length_append] at this
        omega
      have hoff : ((List.replicate k pkt17).flatten ++ qs.flatten).length = 17 * (k + qs.length) := by
        rw [List.length_append, hpre, hq, rep_len, List.length_replicate]
        omega
      rw [h2]
      simp only []
      rw [hoff, hlen, if_neg (by omega)]
      exact hang_from N hN fuel rest n (j + 1) (k + qs.length) (by omega) (by omega)

/-- **C107, false in general.** A burst of 4096 packets of 17 bytes, which is read in parts of 4096
bytes, makes `zclient_read` loop for ever: `offset` has 16 bits and never passes the size. -/
theorem C107_hang : ∃ pkts : List (List Nat), ∃ parts : List (List Nat), (∀ p ∈ pkts, Framed p) ∧
    parts.flatten = pkts.flatten ∧ (∀ x ∈ parts, x.length = 4096) ∧
    ∀ fuel rest, clientRead fuel (parts.map Rd.data ++ rest) [] 0 = .hang := by
  obtain ⟨N, hN⟩ : ∃ N, N = 4096 := ⟨_, rfl⟩
  refine ⟨List.replicate N pkt17, parts N 0 17, ?_, ?_, ?_, ?_⟩
  · intro p hp
    rw [List.eq_of_mem_replicate hp]
    exact pkt17_framed
  · have h : ∀ n j, (parts N j n).flatten = ((many N).drop (4096 * j)).take (4096 * n) := by
      intro n
      induction n with
      | zero => intro j; simp [parts]
      | succ n ih =>
        intro j
        rw [parts_succ, List.flatten_cons, ih, Nat.mul_succ 4096 n, Nat.add_comm (4096 * n) 4096,
          List.take_add, List.drop_drop, Nat.mul_succ 4096 j]
    rw [h 17 0, Nat.mul_zero, List.drop_zero, List.take_of_length_le]
    · rfl
    · rw [many_len]
      omega
  · intro x hx
    unfold parts at hx
    obtain ⟨i, hi, rfl⟩ := List.mem_map.1 hx
    have := List.mem_range.1 hi
    rw [List.length_take, List.length_drop, many_len]
    omega
  · intro fuel rest
    have := hang_from N hN fuel rest 16 0 0 rfl (by omega)
    simpa using this

/-- **C107, false in general.** A length of zero makes `zclient_read` loop for ever, before `zparse`
could refuse it. -/
theorem C107_zero_hang (fuel : Nat) (more : List Nat) (rest : List Rd) :
    clientRead fuel (Rd.data (0 :: 0 :: more) :: rest) [] 0 = .hang := by
  have h : ∀ f, scan (0 :: 0 :: more) f 0 = none := by
    intro f
    induction f with
    | zero => rfl
    | succ f ih =>
      have hg : get16 (0 :: 0 :: more) 0 = 0 := by simp [get16]
      unfold scan
      rw [if_pos (by simp), hg]
      exact ih
  simp only [clientRead, List.nil_append]
  rw [h]

/-- **C107, false in general.** When zebra closes the connection the plugin still counts as connected,
and no later call of `zclient_read` changes this. -/
theorem C107_eof_missed (fuel : Nat) (rest : List Rd) :
    clientRead fuel (Rd.eof :: rest) [] 0 = .nothing true rest := rfl

/-! ### C108: sending -/

/-- A next hop as zebra reads it. -/
inductive Hop where
  | iface (index : Nat)
  | ip4 (a : List Nat)
  | ip6 (a : List Nat)
deriving DecidableEq, Repr

/-- A route message as zebra reads it. -/
structure Msg where
  cmd : Nat
  type : Nat
  flags : Nat
  safi : Option Nat
  plen : Nat
  pfx : List Nat
  hops : List Hop
  distance : Option Nat
  metric : Option Nat
deriving DecidableEq, Repr

/-- A number, most significant byte first. -/
def num (b : List Nat) : Nat := b.foldl (fun a x => a * 256 + x) 0

/-- The next hops: a type and the data of that type. -/
def readHops : Nat → List Nat → Option (List Hop × List Nat)
  | 0, m => some ([], m)
  | _ + 1, [] => none
  | n + 1, t :: m =>
    let k := if t = 6 then 16 else 4
    if m.length < k then none
    else
      let h := if t = 1 then some (Hop.iface (num (m.take 4)))
        else if t = 3 then some (Hop.ip4 (m.take 4))
        else if t = 6 then some (Hop.ip6 (m.take 16)) else none
      h.bind fun h => (readHops n (m.drop k)).map fun r => (h :: r.1, r.2)

/-- The part from the prefix on. -/
def readTail (message : Nat) (m : List Nat) : Option (Nat × List Nat × List Hop × Option Nat × Option Nat) :=
  match m with
  | [] => none
  | plen :: m =>
    let k := (plen + 7) / 8
    if m.length < k then none
    else
      let hops := if message % 2 = 1 then
          match m.drop k with
          | [] => none
          | c :: m' => readHops c m'
        else some ([], m.drop k)
      hops.bind fun r =>
        let dist := if message / 4 % 2 = 1 then r.2.head? else none
        let m3 := if message / 4 % 2 = 1 then r.2.drop 1 else r.2
        if message / 4 % 2 = 1 ∧ r.2 = [] then none
        else if m3.length ≠ (if message / 8 % 2 = 1 then 4 else 0) then none
        else some (plen, m.take k, r.1, dist, if message / 8 % 2 = 1 then some (num m3) else none)

/-- How zebra reads a route message (zread_ipv4_add and its like in quagga's zserv.c): length, marker,
version and command, then the fields; nothing may be left over. -/
def readMsg (ver : Nat) (p : List Nat) : Option Msg :=
  let hdr := if ver = 0 then 3 else 6
  if p.length < hdr + 3 ∨ num (p.take 2) ≠ p.length then none
  else if ver ≠ 0 ∧ ((p.drop 2).take 2 ≠ [255, ver]) then none
  else
    let cmd := if ver = 0 then num ((p.drop 2).take 1) else num ((p.drop 4).take 2)
    let m := p.drop hdr
    let rest := m.drop 3
    let safi := if ver = 2 then some (num (rest.take 2)) else none
    (readTail (m.getD 2 0) (if ver = 2 then rest.drop 2 else rest)).map fun t =>
      ⟨cmd, m.getD 0 0, m.getD 1 0, safi, t.1, t.2.1, t.2.2.1, t.2.2.2.1, t.2.2.2.2⟩

private theorem num_be16 {x : Nat} (h : x < 65536) : num (be16 x) = x := by
  simp only [num, be16, List.foldl_cons, List.foldl_nil]; omega

private theorem num_be32 {x : Nat} (h : x < 4294967296) : num (be32 x) = x := by
  simp only [num, be32, List.foldl_cons, List.foldl_nil]; omega

private theorem readHops_if : ∀ (is : List Nat) (m : List Nat), (∀ i ∈ is, i < 4294967296) →
    readHops is.length ((is.map fun i => 1 :: be32 i).flatten ++ m) = some (is.map Hop.iface, m)
  | [], m, _ => rfl
  | i :: is, m, h => by
    have ih := readHops_if is m (fun j hj => h j (List.mem_cons_of_mem _ hj))
    have hb : be32 i ++ ((is.map fun i => 1 :: be32 i).flatten ++ m) = be32 i ++ ((is.map fun i => 1 :: be32 i).flatten ++ m) := rfl
    simp only [List.length_cons, List.map_cons, List.flatten_cons, List.append_assoc, List.cons_append,
      readHops]
    have hl : (be32 i).length = 4 := rfl
    rw [if_neg (by simp [hl])]
    have ht : (be32 i ++ ((is.map fun i => 1 :: be32 i).flatten ++ m)).take 4 = be32 i := by
      rw [← hl, List.take_left]
    have hd : (be32 i ++ ((is.map fun i => 1 :: be32 i).flatten ++ m)).drop 4
        = (is.map fun i => 1 :: be32 i).flatten ++ m := by
      rw [← hl, List.drop_left]
    simp only [if_true, show ¬((1 : Nat) = 6) by decide, if_false, Option.bind_some]
    rw [ht, hd, ih, num_be32 (h i List.mem_cons_self)]
    rfl

private theorem readHops_ip (v6 : Bool) : ∀ (as : List (List Nat)) (n : Nat) (m : List Nat) (hs : List Hop)
    (m' : List Nat), (∀ a ∈ as, a.length = if v6 then 16 else 4) → readHops n m = some (hs, m') →
    readHops (as.length + n) ((as.map fun a => (if v6 then 6 else 3) :: a).flatten ++ m) =
      some (as.map (if v6 then Hop.ip6 else Hop.ip4) ++ hs, m')
  | [], n, m, hs, m', _, h => by simpa using h
  | a :: as, n, m, hs, m', ha, h => by
    have ih := readHops_ip v6 as n m hs m' (fun b hb => ha b (List.mem_cons_of_mem _ hb)) h
    have hal := ha a List.mem_cons_self
    rw [List.length_cons, show as.length + 1 + n = as.length + n + 1 by omega]
    simp only [List.map_cons, List.flatten_cons, List.append_assoc, List.cons_append]
    obtain ⟨R, hR⟩ : ∃ R, R = (as.map fun a => (if v6 then 6 else 3) :: a).flatten ++ m := ⟨_, rfl⟩
    rw [← hR] at ih ⊢
    cases v6
    · simp only [Bool.false_eq_true, if_false] at hal ih ⊢
      have ht : (a ++ R).take 4 = a := by rw [← hal, List.take_left]
      have hd : (a ++ R).drop 4 = R := by rw [← hal, List.drop_left]
      have hlen : ¬ ((a ++ R).length < 4) := by rw [List.length_append]; omega
      simp only [readHops, show ¬((3 : Nat) = 6) by decide, show ¬((3 : Nat) = 1) by decide, if_false,
        if_true, hlen, Option.bind_some, ht, hd, ih, Option.map_some]
    · simp only [if_true] at hal ih ⊢
      have ht : (a ++ R).take 16 = a := by rw [← hal, List.take_left]
      have hd : (a ++ R).drop 16 = R := by rw [← hal, List.drop_left]
      have hlen : ¬ ((a ++ R).length < 16) := by rw [List.length_append]; omega
      simp only [readHops, show ¬((6 : Nat) = 1) by decide, show ¬((6 : Nat) = 3) by decide, if_false,
        if_true, hlen, Option.bind_some, ht, hd, ih, Option.map_some]

private theorem has_iff {m f : Nat} : (has m f = true) ↔ m / f % 2 = 1 := by
  unfold has; simp

private theorem readHops_all {v6 : Bool} {r : ZRoute} (hn : r.nexthops.length + r.ifindex.length < 256)
    (ha : ∀ a ∈ r.nexthops, a.length = if v6 then 16 else 4) (hi : ∀ i ∈ r.ifindex, i < 4294967296)
    (m : List Nat) :
    readHops ((r.nexthops.length + r.ifindex.length) % 256)
      ((r.nexthops.map fun a => (if v6 then 6 else 3) :: a).flatten ++
        ((r.ifindex.map fun i => 1 :: be32 i).flatten ++ m)) =
      some (r.nexthops.map (if v6 then Hop.ip6 else Hop.ip4) ++ r.ifindex.map Hop.iface, m) := by
  rw [Nat.mod_eq_of_lt hn]
  exact readHops_ip v6 r.nexthops _ _ _ _ ha (readHops_if r.ifindex m hi)

private theorem readTail_ok {v6 : Bool} {r : ZRoute} (hpl : (r.plen + 7) / 8 ≤ r.pfx.length)
    (hmet : r.metric < 4294967296) (hn : r.nexthops.length + r.ifindex.length < 256)
    (ha : ∀ a ∈ r.nexthops, a.length = if v6 then 16 else 4) (hi : ∀ i ∈ r.ifindex, i < 4294967296) :
    readTail r.message (r.plen :: (r.pfx.take ((r.plen + 7) / 8) ++ (nexthopBytes v6 r ++
      ((if has r.message 4 then [r.distance] else []) ++
        (if has r.message 8 then be32 r.metric else []))))) =
    some (r.plen, r.pfx.take ((r.plen + 7) / 8),
      if r.message % 2 = 1 then r.nexthops.map (if v6 then Hop.ip6 else Hop.ip4) ++
        r.ifindex.map Hop.iface else [],
      if r.message / 4 % 2 = 1 then some r.distance else none,
      if r.message / 8 % 2 = 1 then some r.metric else none) := by
  obtain ⟨D, hD⟩ : ∃ D, D = (if has r.message 4 then [r.distance] else []) := ⟨_, rfl⟩
  obtain ⟨M, hM⟩ : ∃ M, M = (if has r.message 8 then be32 r.metric else []) := ⟨_, rfl⟩
  obtain ⟨k, hk⟩ : ∃ k, k = (r.plen + 7) / 8 := ⟨_, rfl⟩
  rw [← hD, ← hM, ← hk]
  rw [← hk] at hpl
  have hkl : (r.pfx.take k).length = k := by rw [List.length_take]; omega
  obtain ⟨P, hP⟩ : ∃ P, P = r.pfx.take k := ⟨_, rfl⟩
  rw [← hP] at hkl ⊢
  unfold readTail
  simp only []
  rw [← hk]
  have ht : ∀ X : List Nat, (P ++ X).take k = P := fun X => by rw [← hkl, List.take_left]
  have hd : ∀ X : List Nat, (P ++ X).drop k = X := fun X => by rw [← hkl, List.drop_left]
  rw [if_neg (by rw [List.length_append]; omega), ht, hd]
  have hhops : (if r.message % 2 = 1 then
          match nexthopBytes v6 r ++ (D ++ M) with
          | [] => none
          | c :: m' => readHops c m'
        else some ([], nexthopBytes v6 r ++ (D ++ M))) =
      some (if r.message % 2 = 1 then r.nexthops.map (if v6 then Hop.ip6 else Hop.ip4) ++
        r.ifindex.map Hop.iface else [], D ++ M) := by
    unfold nexthopBytes
    by_cases h1 : r.message % 2 = 1
    · have hh : has r.message 1 = true := has_iff.2 (by rw [Nat.div_one]; exact h1)
      rw [if_pos h1, if_pos h1, if_pos hh]
      simp only [List.append_assoc, List.cons_append, List.nil_append]
      exact readHops_all hn ha hi (D ++ M)
    · have hh : ¬ has r.message 1 = true := by rw [has_iff, Nat.div_one]; exact h1
      rw [if_neg h1, if_neg h1, if_neg hh]
      rfl
  rw [hhops]
  simp only [Option.bind_some]
  by_cases h4 : r.message / 4 % 2 = 1
  · have hd4 : D = [r.distance] := by rw [hD, if_pos (has_iff.2 h4)]
    by_cases h8 : r.message / 8 % 2 = 1
    · have hm8 : M = be32 r.metric := by rw [hM, if_pos (has_iff.2 h8)]
      subst hd4 hm8
      simp only [h4, h8, if_true, List.cons_append, List.nil_append, List.drop_succ_cons, List.drop_zero,
        num_be32 hmet, List.head?_cons]
      simp [be32]
    · have hm8 : M = [] := by rw [hM, if_neg (by rw [has_iff]; exact h8)]
      subst hd4 hm8
      simp [h4, h8]
  · have hd4 : D = [] := by rw [hD, if_neg (by rw [has_iff]; exact h4)]
    by_cases h8 : r.message / 8 % 2 = 1
    · have hm8 : M = be32 r.metric := by rw [hM, if_pos (has_iff.2 h8)]
      subst hd4 hm8
      simp only [h4, h8, if_true, if_false, List.nil_append, num_be32 hmet]
      simp [be32]
    · have hm8 : M = [] := by rw [hM, if_neg (by rw [has_iff]; exact h8)]
      subst hd4 hm8
      simp [h4, h8]

private theorem readMsg_0 (a b c t f m : Nat) (T : List Nat) (h : num [a, b] = T.length + 6) :
    readMsg 0 (a :: b :: c :: t :: f :: m :: T) = (readTail m T).map fun x =>
      ⟨num [c], t, f, none, x.1, x.2.1, x.2.2.1, x.2.2.2.1, x.2.2.2.2⟩ := by
  simp [readMsg, h]
  intro h; omega

private theorem readMsg_1 (a b c d t f m : Nat) (T : List Nat) (h : num [a, b] = T.length + 9) :
    readMsg 1 (a :: b :: 255 :: 1 :: c :: d :: t :: f :: m :: T) = (readTail m T).map fun x =>
      ⟨num [c, d], t, f, none, x.1, x.2.1, x.2.2.1, x.2.2.2.1, x.2.2.2.2⟩ := by
  simp [readMsg, h]
  intro h; omega

private theorem readMsg_2 (a b c d t f m s1 s2 : Nat) (T : List Nat) (h : num [a, b] = T.length + 11) :
    readMsg 2 (a :: b :: 255 :: 2 :: c :: d :: t :: f :: m :: s1 :: s2 :: T) = (readTail m T).map fun x =>
      ⟨num [c, d], t, f, some (num [s1, s2]), x.1, x.2.1, x.2.2.1, x.2.2.2.1, x.2.2.2.2⟩ := by
  simp [readMsg, h]
  intro h; omega

/-- **C108.** Zebra reads from a packet what was put into the route: all fields, every next hop with
its type, distance and metric if their flags are set. -/
theorem C108_route {ver cmd : Nat} {v6 : Bool} {r : ZRoute} {p : List Nat}
    (hp : packetRoute ver v6 cmd r = .ok p) (hcmd : cmd < if ver = 0 then 256 else 65536)
    (hsafi : r.safi < 65536) (hmet : r.metric < 4294967296)
    (hn : r.nexthops.length + r.ifindex.length < 256)
    (ha : ∀ a ∈ r.nexthops, a.length = if v6 then 16 else 4) (hi : ∀ i ∈ r.ifindex, i < 4294967296) :
    readMsg ver p = some
      { cmd := cmd, type := r.type, flags := r.flags
        safi := if ver = 2 then some r.safi else none
        plen := r.plen, pfx := r.pfx.take ((r.plen + 7) / 8)
        hops := if r.message % 2 = 1 then r.nexthops.map (if v6 then Hop.ip6 else Hop.ip4) ++
            r.ifindex.map Hop.iface else []
        distance := if r.message / 4 % 2 = 1 then some r.distance else none
        metric := if r.message / 8 % 2 = 1 then some r.metric else none } := by
  unfold packetRoute at hp
  split at hp
  · cases hp
  rename_i hver
  split at hp
  · cases hp
  rename_i hpl
  split at hp
  · cases hp
  rename_i hlen
  have hpe : be16 (2 + (routeBody ver v6 cmd r).length) ++ routeBody ver v6 cmd r = p := by
    injection hp
  have htail := readTail_ok (v6 := v6) (r := r) (by omega) hmet hn ha hi
  obtain ⟨T, hT⟩ : ∃ T, T = r.plen :: (r.pfx.take ((r.plen + 7) / 8) ++ (nexthopBytes v6 r ++
      ((if has r.message 4 then [r.distance] else []) ++
        (if has r.message 8 then be32 r.metric else [])))) := ⟨_, rfl⟩
  rw [← hT] at htail
  have hbody : routeBody ver v6 cmd r = header ver cmd ++ (r.type :: r.flags :: r.message ::
      ((if ver = 2 then be16 r.safi else []) ++ T)) := by
    unfold routeBody
    rw [hT]
    simp only [List.append_assoc, List.cons_append, List.nil_append]
  obtain ⟨L, hL⟩ : ∃ L, L = 2 + (routeBody ver v6 cmd r).length := ⟨_, rfl⟩
  have hL2 : L < 65536 := by omega
  have hnum : num (be16 L) = L := num_be16 hL2
  rw [← hpe, ← hL]
  rw [hbody] at hL ⊢
  have h3 : ver = 0 ∨ ver = 1 ∨ ver = 2 := by omega
  rcases h3 with h | h | h
  · subst h
    simp only [header, if_true, show ¬((0 : Nat) = 2) by decide, if_false, List.nil_append,
      List.cons_append, List.length_cons] at hL hcmd ⊢
    simp only [be16] at hnum ⊢
    simp only [List.cons_append, List.nil_append]
    rw [readMsg_0 _ _ _ _ _ _ _ (by rw [hnum]; omega), htail]
    simp only [Option.map_some, num, List.foldl_cons, List.foldl_nil, Nat.zero_mul, Nat.zero_add,
      Nat.mod_eq_of_lt hcmd]
  · subst h
    simp only [header, show ¬((1 : Nat) = 0) by decide, show ¬((1 : Nat) = 2) by decide, if_false,
      List.nil_append, List.cons_append, List.length_cons] at hL hcmd ⊢
    have hc := num_be16 hcmd
    simp only [be16] at hnum hc hL ⊢
    simp only [List.cons_append, List.nil_append, List.length_cons] at hL ⊢
    rw [readMsg_1 _ _ _ _ _ _ _ _ (by rw [hnum]; omega), htail, hc]
    rfl
  · subst h
    simp only [header, show ¬((2 : Nat) = 0) by decide, if_false, if_true,
      List.nil_append, List.cons_append, List.length_cons] at hL hcmd ⊢
    have hc := num_be16 hcmd
    have hs := num_be16 hsafi
    simp only [be16] at hnum hc hs hL ⊢
    simp only [List.cons_append, List.nil_append, List.length_cons] at hL ⊢
    rw [readMsg_2 _ _ _ _ _ _ _ _ _ _ (by rw [hnum]; omega), htail, hc, hs]
    rfl

private theorem zroute_ok (c : Conf) (r : Rt) (cmd met : Nat) (hv : c.ver ≤ 2)
    (hd : r.dst.length = if c.v6 then 16 else 4) (hg : r.gw.length = if c.v6 then 16 else 4)
    (hpl : r.plen ≤ if c.v6 then 128 else 32) :
    ∃ p, packetRoute c.ver c.v6 cmd (zroute c r met) = .ok p := by
  have hlen : (routeBody c.ver c.v6 cmd (zroute c r met)).length ≤ 4094 := by
    have h1 : (header c.ver cmd).length ≤ 4 := by
      unfold header; split <;> simp [be16]
    have h2 : (nexthopBytes c.v6 (zroute c r met)).length ≤ 30 := by
      unfold nexthopBytes
      by_cases hm : has (zroute c r met).message 1 = true
      · rw [if_pos hm]
        by_cases he : r.gw = r.dst ∧ r.plen = (if c.v6 then 128 else 32)
        · have e1 : (zroute c r met).nexthops = [] := if_pos he
          have e2 : (zroute c r met).ifindex = [r.iif] := if_pos he
          rw [e1, e2]; simp [be32]
        · have e1 : (zroute c r met).nexthops = [r.gw] := if_neg he
          have e2 : (zroute c r met).ifindex = [] := if_neg he
          rw [e1, e2]
          simp only [List.map_cons, List.map_nil, List.flatten_cons, List.flatten_nil, List.append_nil,
            List.length_append, List.length_cons, List.length_nil, hg]
          cases c.v6 <;> simp
      · rw [if_neg hm]; simp
    unfold routeBody
    simp only [List.length_append, List.length_take, List.length_cons, List.length_nil]
    have h3 : (if c.ver = 2 then be16 (zroute c r met).safi else []).length ≤ 2 := by
      split <;> simp [be16]
    have h4 : (if has (zroute c r met).message 4 = true then [(zroute c r met).distance] else []).length ≤ 1 := by
      split <;> simp
    have h5 : (if has (zroute c r met).message 8 = true then be32 (zroute c r met).metric else []).length ≤ 4 := by
      split <;> simp [be32]
    have h6 : min (((zroute c r met).plen + 7) / 8) (zroute c r met).pfx.length ≤ 16 := by
      have : (zroute c r met).pfx.length ≤ 16 := by
        show r.dst.length ≤ 16
        rw [hd]; split <;> omega
      omega
    omega
  unfold packetRoute
  rw [if_neg (by omega), if_neg, if_neg (by omega)]
  · exact ⟨_, rfl⟩
  · show ¬ (r.dst.length < (r.plen + 7) / 8)
    rw [hd]
    split at hpl <;> simp_all <;> omega

private theorem zroute_msg (c : Conf) (r : Rt) (cmd met : Nat) (hv : c.ver ≤ 2) (hcmd : cmd < 256)
    (hd : r.dst.length = if c.v6 then 16 else 4) (hg : r.gw.length = if c.v6 then 16 else 4)
    (hpl : r.plen ≤ if c.v6 then 128 else 32) (hi : r.iif < 4294967296) (hm : met < 4294967296) :
    ∃ p, packetRoute c.ver c.v6 cmd (zroute c r met) = .ok p ∧ readMsg c.ver p = some
      { cmd := cmd, type := 11, flags := c.flags, safi := if c.ver = 2 then some 1 else none
        plen := r.plen, pfx := r.dst.take ((r.plen + 7) / 8)
        hops := [if r.gw = r.dst ∧ r.plen = (if c.v6 then 128 else 32) then Hop.iface r.iif
          else if c.v6 then Hop.ip6 r.gw else Hop.ip4 r.gw]
        distance := if c.distance = 0 then none else some c.distance
        metric := some met } := by
  obtain ⟨p, hp⟩ := zroute_ok c r cmd met hv hd hg hpl
  refine ⟨p, hp, ?_⟩
  have h := C108_route hp (by split <;> omega) (show 1 < 65536 by decide) hm
    (by
      by_cases he : r.gw = r.dst ∧ r.plen = (if c.v6 then 128 else 32)
      · have e1 : (zroute c r met).nexthops = [] := if_pos he
        have e2 : (zroute c r met).ifindex = [r.iif] := if_pos he
        rw [e1, e2]; simp
      · have e1 : (zroute c r met).nexthops = [r.gw] := if_neg he
        have e2 : (zroute c r met).ifindex = [] := if_neg he
        rw [e1, e2]; simp)
    (by
      intro a ha
      by_cases he : r.gw = r.dst ∧ r.plen = (if c.v6 then 128 else 32)
      · rw [show (zroute c r met).nexthops = [] from if_pos he] at ha
        cases ha
      · rw [show (zroute c r met).nexthops = [r.gw] from if_neg he] at ha
        rw [List.mem_singleton.1 ha]; exact hg)
    (by
      intro a ha
      by_cases he : r.gw = r.dst ∧ r.plen = (if c.v6 then 128 else 32)
      · rw [show (zroute c r met).ifindex = [r.iif] from if_pos he] at ha
        rw [List.mem_singleton.1 ha]; exact hi
      · rw [show (zroute c r met).ifindex = [] from if_neg he] at ha
        cases ha)
  rw [h]
  unfold zroute
  simp only []
  by_cases hz : c.distance = 0
  · by_cases he : r.gw = r.dst ∧ r.plen = (if c.v6 then 128 else 32)
    · simp only [if_pos hz, if_pos he]; rfl
    · simp only [if_pos hz, if_neg he]
      cases c.v6 <;> rfl
  · by_cases he : r.gw = r.dst ∧ r.plen = (if c.v6 then 128 else 32)
    · simp only [if_neg hz, if_pos he]; rfl
    · simp only [if_neg hz, if_neg he]
      cases c.v6 <;> rfl

/-- **C108.** For every route zebra gets a complete message to add it: the destination, the gateway, or
the interface if the destination is a neighbour, the distance if one is configured and the hops. -/
theorem C108_add (c : Conf) (r : Rt) (hv : c.ver ≤ 2)
    (hd : r.dst.length = if c.v6 then 16 else 4) (hg : r.gw.length = if c.v6 then 16 else 4)
    (hpl : r.plen ≤ if c.v6 then 128 else 32) (hi : r.iif < 4294967296) (hm : r.hops < 4294967296) :
    ∃ p, addroute c r = .ok p ∧ readMsg c.ver p = some
      { cmd := if c.v6 then 9 else 7, type := 11, flags := c.flags
        safi := if c.ver = 2 then some 1 else none
        plen := r.plen, pfx := r.dst.take ((r.plen + 7) / 8)
        hops := [if r.gw = r.dst ∧ r.plen = (if c.v6 then 128 else 32) then Hop.iface r.iif
          else if c.v6 then Hop.ip6 r.gw else Hop.ip4 r.gw]
        distance := if c.distance = 0 then none else some c.distance
        metric := some r.hops } :=
  zroute_msg c r _ r.hops hv (by split <;> omega) hd hg hpl hi hm

/-- **C108.** The message to delete a route differs in the command and the metric. -/
theorem C108_del (c : Conf) (r : Rt) (hv : c.ver ≤ 2)
    (hd : r.dst.length = if c.v6 then 16 else 4) (hg : r.gw.length = if c.v6 then 16 else 4)
    (hpl : r.plen ≤ if c.v6 then 128 else 32) (hi : r.iif < 4294967296) :
    ∃ p, delroute c r = .ok p ∧ readMsg c.ver p = some
      { cmd := if c.v6 then 10 else 8, type := 11, flags := c.flags
        safi := if c.ver = 2 then some 1 else none
        plen := r.plen, pfx := r.dst.take ((r.plen + 7) / 8)
        hops := [if r.gw = r.dst ∧ r.plen = (if c.v6 then 128 else 32) then Hop.iface r.iif
          else if c.v6 then Hop.ip6 r.gw else Hop.ip4 r.gw]
        distance := if c.distance = 0 then none else some c.distance
        metric := some 0 } :=
  zroute_msg c r _ 0 hv (by split <;> omega) hd hg hpl hi (by decide)

example : addroute ⟨2, false, 0, 120⟩ ⟨[10, 1, 2, 0], 24, [10, 0, 0, 7], 3, 2⟩ =
    .ok [0, 26, 255, 2, 0, 7, 11, 0, 13, 0, 1, 24, 10, 1, 2, 1, 3, 10, 0, 0, 7, 120, 0, 0, 0, 2] ∧
    delroute ⟨0, false, 0, 0⟩ ⟨[10, 0, 0, 7], 32, [10, 0, 0, 7], 3, 1⟩ =
    .ok [0, 21, 8, 11, 0, 9, 32, 10, 0, 0, 7, 1, 1, 0, 0, 0, 3, 0, 0, 0, 0] := by
  decide +kernel

/-- **C108.** What `zclient_write` has sent when it reports success is the packet, whatever parts the
socket took; otherwise a part of it from its start. -/
theorem C108_write : ∀ (ws : List Wr) (p : List Nat),
    (∃ t, p = (write p ws).1 ++ t) ∧ ((write p ws).2 = some 0 → (write p ws).1 = p)
  | [], p => ⟨⟨p, rfl⟩, fun h => by cases h⟩
  | .again :: ws, p => by
    unfold write
    by_cases hp : p = []
    · rw [if_pos hp]; exact ⟨⟨p, rfl⟩, fun _ => hp.symm⟩
    · rw [if_neg hp]; exact C108_write ws p
  | .fail :: ws, p => ⟨⟨p, rfl⟩, fun h => by cases h⟩
  | .wrote n :: ws, p => by
    unfold write
    by_cases hp : p.drop n = []
    · rw [if_pos hp]
      have : p.take n = p := by
        have := List.take_append_drop n p
        rw [hp, List.append_nil] at this
        exact this
      exact ⟨⟨[], by rw [List.append_nil]; exact this.symm⟩, fun _ => this⟩
    · rw [if_neg hp]
      obtain ⟨⟨t, ht⟩, h2⟩ := C108_write ws (p.drop n)
      refine ⟨⟨t, ?_⟩, fun h => ?_⟩
      · simp only [List.append_assoc]
        rw [← ht, List.take_append_drop]
      · simp only [] at h ⊢
        rw [h2 h, List.take_append_drop]

example : write [0, 4, 23, 11] [.wrote 1, .again, .wrote 2, .wrote 1] = ([0, 4, 23, 11], some 0) ∧
    write [0, 4, 23, 11] [.wrote 3, .fail] = ([0, 4, 23], some (-1)) := by decide +kernel

/-- **C108, false in general.** Without a connection to zebra the packet is not freed: every route
that is added or removed then loses 4096 bytes. -/
theorem C108_leak (p : List Nat) (ws : List Wr) : clientWrite false p ws = ([], some 0, false) := rfl

/-- **C108, false in general.** The option LocalPref has no effect: `&=` leaves the flags at 0. -/
theorem C108_localpref (bs : List Bool) : bs.foldl (fun f b => localpref b f) 0 = 0 := by
  induction bs with
  | nil => rfl
  | cons b bs ih => cases b <;> exact ih

end Verif.Zebra
