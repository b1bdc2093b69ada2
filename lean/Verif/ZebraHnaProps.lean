import Verif.ZebraLemmas

/-
Properties C109 and C110: the routes of zebra as HNA entries.
-/

namespace Verif.Zebra

/-! ### C109: reading the messages of zebra -/

/-- A route that zebra tells its clients of (zsend_route_multipath of quagga). -/
structure Told where
  type : Nat
  flags : Nat
  plen : Nat
  pfx : List Nat
  hops : Option (List (List Nat))
  ifaces : Option (List Nat)
  distance : Option Nat
  metric : Option Nat
deriving DecidableEq, Repr

/-- A message of zebra. -/
inductive Note where
  | add (t : Told)
  | del (t : Told)
  | other (cmd : Nat) (payload : List Nat)
deriving DecidableEq, Repr

/-- One flag per optional field. -/
def Told.message (t : Told) : Nat :=
  (if t.hops.isSome then 1 else 0) + (if t.ifaces.isSome then 2 else 0) +
    (if t.distance.isSome then 4 else 0) + (if t.metric.isSome then 8 else 0)

/-- An optional list of items: their number and the items. -/
def counted : Option (List (List Nat)) → List Nat
  | some x => x.length :: x.flatten
  | none => []

/-- The route on the wire.  In version 0 the metric is always there. -/
def Told.bytes (ver : Nat) (t : Told) : List Nat :=
  [t.type, t.flags, t.message, t.plen] ++ t.pfx ++
    counted t.hops ++ counted (t.ifaces.map fun i => i.map be32) ++
    (match t.distance with | some d => [d] | none => []) ++
    (match t.metric with | some m => be32 m | none => if ver = 0 then [0, 0, 0, 0] else [])

/-- The command and what follows it. -/
def Note.cmd (v6 : Bool) : Note → Nat
  | .add _ => if v6 then 9 else 7
  | .del _ => if v6 then 10 else 8
  | .other c _ => c

def Note.body (ver : Nat) : Note → List Nat
  | .add t => t.bytes ver
  | .del t => t.bytes ver
  | .other _ p => p

/-- A message on the wire: length, marker and version, command, body. -/
def Note.bytes (ver : Nat) (v6 : Bool) (n : Note) : List Nat :=
  let rest := (if ver = 0 then [n.cmd v6] else [255, ver, n.cmd v6 / 256, n.cmd v6 % 256]) ++ n.body ver
  [(rest.length + 2) / 256, (rest.length + 2) % 256] ++ rest

/-- A route that fits its fields. -/
def Told.Ok (v6 : Bool) (t : Told) : Prop :=
  t.plen ≤ (if v6 then 128 else 32) ∧ t.pfx.length = (t.plen + 7) / 8 ∧
  (∀ h, t.hops = some h → ∀ a ∈ h, a.length = if v6 then 16 else 4) ∧
  (∀ i, t.ifaces = some i → ∀ x ∈ i, x < 4294967296) ∧ (∀ m, t.metric = some m → m < 4294967296)

/-- A message that fits its fields. -/
def Note.Ok (ver : Nat) (v6 : Bool) (n : Note) : Prop :=
  (n.bytes ver v6).length < 65536 ∧ n.cmd v6 < (if ver = 0 then 256 else 65536) ∧
  match n with
  | .add t => t.Ok v6
  | .del t => t.Ok v6
  | .other c _ => if v6 then c ≠ 9 ∧ c ≠ 10 else c ≠ 7 ∧ c ≠ 8

/-- The prefix of a route as an HNA entry: the union is filled up with zeros. -/
def Told.hna (t : Told) : List Nat × Nat := (t.pfx ++ List.replicate (16 - t.pfx.length) 0, t.plen)

/-- What a message means for the HNA entries: a route is added, or one entry with its address and
prefix length is removed. -/
def Note.apply (v6 : Bool) (l : List (List Nat × Nat)) : Note → List (List Nat × Nat)
  | .add t => t.hna :: l
  | .del t => l.eraseP fun e =>
      decide (e.1.take (if v6 then 16 else 4) = t.hna.1.take (if v6 then 16 else 4)) && e.2 == t.plen
  | .other _ _ => l

private theorem flags_ok (t : Told) :
    has t.message 1 = t.hops.isSome ∧ has t.message 2 = t.ifaces.isSome ∧
    has t.message 4 = t.distance.isSome ∧ has t.message 8 = t.metric.isSome := by
  unfold Told.message
  cases t.hops.isSome <;> cases t.ifaces.isSome <;> cases t.distance.isSome <;>
    cases t.metric.isSome <;> decide

private theorem counted_ok (k : Nat) (o : Option (List (List Nat))) (m : List Nat)
    (h : ∀ x, o = some x → ∀ a ∈ x, a.length = k) :
    rdCounted o.isSome k (counted o ++ m) =
      some (o.getD [], m) := by
  cases o with
  | none => rfl
  | some x =>
    simp only [rdCounted, counted, Option.isSome_some, if_true, List.cons_append, Option.getD_some]
    have := rd_append [x.length] (x.flatten ++ m)
    simp only [List.length_cons, List.length_nil, List.cons_append, List.nil_append, Nat.zero_add] at this
    rw [this]
    exact rdMany_append k x m (h x rfl)

private theorem ifaces_ok (o : Option (List Nat)) (m : List Nat) :
    rdCounted o.isSome 4 (counted (o.map fun i => i.map be32) ++ m) =
      some ((o.getD []).map be32, m) := by
  have := counted_ok 4 (o.map (fun i => i.map be32)) m (by
    intro x hx a ha
    cases o with
    | none => cases hx
    | some i =>
      simp only [Option.map_some, Option.some.injEq] at hx
      subst hx
      obtain ⟨j, _, rfl⟩ := List.mem_map.1 ha
      rfl)
  cases o with
  | none => exact this
  | some i => simpa using this

private theorem map_val32 {is : List Nat} (h : ∀ x ∈ is, x < 4294967296) :
    (is.map be32).map val32 = is := by
  rw [List.map_map]
  conv => rhs; rw [← List.map_id is]
  apply List.map_congr_left
  intro x hx
  exact val32_be32 (h x hx)

private theorem fields_ok {ver : Nat} {v6 : Bool} {t : Told} (ht : t.Ok v6) (rest : List Nat) :
    routeFields ver v6 (t.bytes ver ++ rest) = some
      (⟨t.type, t.flags, t.message, 0, t.plen, t.hna.1, t.hops.getD [], t.ifaces.getD [],
        t.metric.getD 0, t.distance.getD 0⟩, rest) := by
  obtain ⟨h1, h2, h3, h4, h5⟩ := ht
  obtain ⟨f1, f2, f4, f8⟩ := flags_ok t
  have h16 : ¬ ((t.plen + 7) / 8 > 16) := by split at h1 <;> omega
  unfold Told.bytes
  obtain ⟨A, hA⟩ : ∃ A, A = counted t.hops := ⟨_, rfl⟩
  obtain ⟨B, hB⟩ : ∃ B, B = counted (t.ifaces.map fun i => i.map be32) := ⟨_, rfl⟩
  obtain ⟨C, hC⟩ : ∃ C, C = (match t.distance with | some d => [d] | none => []) := ⟨_, rfl⟩
  obtain ⟨D, hD⟩ : ∃ D, D = (match t.metric with
    | some m => be32 m | none => if ver = 0 then [0, 0, 0, 0] else []) := ⟨_, rfl⟩
  rw [← hA, ← hB, ← hC, ← hD]
  simp only [List.append_assoc]
  unfold routeFields
  rw [rd_append' (n := 4) (x := [t.type, t.flags, t.message, t.plen]) rfl]
  simp only [List.getD_cons_zero, List.getD_cons_succ]
  rw [if_neg h16, rd_append' h2]
  simp only []
  rw [f1, f2, f4, f8, hA, counted_ok _ _ _ h3]
  simp only []
  rw [hB, ifaces_ok]
  simp only []
  have hdist : rdIf t.distance.isSome 1 (C ++ (D ++ rest)) = some (C, D ++ rest) := by
    rw [hC]
    cases t.distance with
    | none => rfl
    | some d => exact rd_append' (x := [d]) rfl
  rw [hdist]
  simp only []
  have hmet : rdIf (t.metric.isSome || ver == 0) 4 (D ++ rest) = some (D, rest) := by
    rw [hD]
    cases t.metric with
    | none =>
      by_cases hv : ver = 0
      · subst hv
        exact rd_append' (x := [0, 0, 0, 0]) rfl
      · rw [if_neg hv]
        have : (ver == 0) = false := by simpa using hv
        rw [this]
        rfl
    | some m =>
      simp only [Option.isSome_some, Bool.true_or]
      exact rd_append' (x := be32 m) rfl
  rw [hmet]
  simp only []
  have e1 : ((t.ifaces.getD []).map be32).map val32 = t.ifaces.getD [] := by
    apply map_val32
    intro x hx
    cases hif : t.ifaces with
    | none => rw [hif] at hx; cases hx
    | some i => rw [hif] at hx; exact h4 i hif x hx
  have e2 : val32 D = t.metric.getD 0 := by
    rw [hD]
    cases hm : t.metric with
    | none =>
      by_cases hv : ver = 0
      · rw [if_pos hv]; rfl
      · rw [if_neg hv]; rfl
    | some m => exact val32_be32 (h5 m hm)
  have e3 : C.getD 0 0 = t.distance.getD 0 := by
    rw [hC]
    cases t.distance <;> rfl
  rw [e1, e2, e3]
  rfl

private theorem bytes_split (ver : Nat) (v6 : Bool) (n : Note) (rest : List Nat) :
    ∃ H : List Nat, H.length = (if ver = 0 then 3 else 6) ∧
      n.bytes ver v6 ++ rest = H ++ (n.body ver ++ rest) ∧
      (n.bytes ver v6).length = H.length + (n.body ver).length ∧
      (n.Ok ver v6 → ∀ m, get16 (H ++ m) 0 = (n.bytes ver v6).length) ∧
      (n.Ok ver v6 → ∀ m, command ver (H ++ m) = .ok (n.cmd v6)) := by
  obtain ⟨b, hb⟩ : ∃ b, b = n.body ver := ⟨_, rfl⟩
  obtain ⟨c, hc⟩ : ∃ c, c = n.cmd v6 := ⟨_, rfl⟩
  unfold Note.Ok Note.bytes
  rw [← hb, ← hc]
  by_cases hv : ver = 0
  · simp only [hv, if_true]
    refine ⟨[(([c] ++ b).length + 2) / 256, (([c] ++ b).length + 2) % 256, c], rfl, ?_, ?_, ?_, ?_⟩
    · simp
    · simp; omega
    · intro _ m
      simp only [get16, List.cons_append, List.getD_cons_zero, List.getD_cons_succ, List.length_cons,
        List.nil_append]
      omega
    · intro _ m
      unfold command
      simp only [if_true]
      rw [rd_append' (n := 3) rfl]
      rfl
  · simp only [hv, if_false]
    refine ⟨[(([255, ver, c / 256, c % 256] ++ b).length + 2) / 256,
      (([255, ver, c / 256, c % 256] ++ b).length + 2) % 256, 255, ver, c / 256, c % 256], rfl, ?_, ?_, ?_, ?_⟩
    · simp
    · simp; omega
    · intro _ m
      simp only [get16, List.cons_append, List.getD_cons_zero, List.getD_cons_succ, List.length_cons,
        List.nil_append]
      omega
    · intro _ m
      unfold command
      rw [if_neg hv, rd_append' (n := 6) rfl]
      simp only [List.getD_cons_zero, List.getD_cons_succ, get16]
      rw [if_neg (by simp)]
      congr 1
      omega

private theorem parseRoute_ok {ver : Nat} {v6 : Bool} {n : Note} {t : Told} (hn : n.Ok ver v6)
    (hb : n.body ver = t.bytes ver) (ht : t.Ok v6) (rest : List Nat) :
    ∃ r, parseRoute ver v6 (n.bytes ver v6 ++ rest) = .ok r ∧ r.pfx = t.hna.1 ∧ r.plen = t.plen ∧
      r.type = t.type ∧ r.flags = t.flags ∧ r.nexthops = t.hops.getD [] ∧ r.ifindex = t.ifaces.getD [] ∧
      r.metric = t.metric.getD 0 ∧ r.distance = t.distance.getD 0 := by
  obtain ⟨H, h1, h2, h3, h4, _⟩ := bytes_split ver v6 n rest
  unfold parseRoute
  rw [h2, rd_append' h1]
  simp only []
  rw [hb, fields_ok ht]
  simp only []
  rw [h4 hn, if_pos]
  · exact ⟨_, rfl, rfl, rfl, rfl, rfl, rfl, rfl, rfl, rfl⟩
  · rw [h3, hb]
    simp only [List.length_append]
    omega

private theorem listRemove_eq (v6 : Bool) (t : Told) : ∀ l : List Hna,
    listRemove v6 l (t.hna.1, t.plen) = Note.apply v6 l (.del t)
  | [] => rfl
  | x :: l => by
    have ih := listRemove_eq v6 t l
    unfold listRemove
    simp only [Note.apply] at ih ⊢
    rw [List.eraseP_cons, ih]
    by_cases hc : t.hna.1.take (if v6 then 16 else 4) = x.1.take (if v6 then 16 else 4) ∧ x.2 = t.plen
    · rw [if_pos hc]
      simp [hc.1, hc.2]
    · rw [if_neg hc]
      have : (decide (x.1.take (if v6 then 16 else 4) = t.hna.1.take (if v6 then 16 else 4)) &&
          x.2 == t.plen) = false := by
        rw [Bool.and_eq_false_iff]
        by_cases h1 : x.1.take (if v6 then 16 else 4) = t.hna.1.take (if v6 then 16 else 4)
        · exact Or.inr (by simpa using fun h2 => hc ⟨h1.symm, h2⟩)
        · exact Or.inl (by simpa using h1)
      rw [this]
      rfl

private theorem dispatch_ok {ver : Nat} {v6 : Bool} {n : Note} (hn : n.Ok ver v6) (rest : List Nat)
    (l : List Hna) : dispatch ver v6 (n.bytes ver v6 ++ rest) (n.cmd v6) l = .ok (n.apply v6 l) := by
  unfold dispatch
  cases n with
  | add t =>
    obtain ⟨r, h1, h2, h3, _⟩ := parseRoute_ok (t := t) hn rfl hn.2.2 rest
    simp only [Note.cmd, if_true]
    rw [h1]
    simp only []
    rw [h2, h3]
    rfl
  | del t =>
    obtain ⟨r, h1, h2, h3, _⟩ := parseRoute_ok (t := t) hn rfl hn.2.2 rest
    simp only [Note.cmd]
    rw [if_neg (by cases v6 <;> decide), if_pos trivial, h1]
    simp only []
    rw [h2, h3, listRemove_eq]
  | other c p =>
    have h := hn.2.2
    simp only [Note.cmd]
    cases v6
    · simp only [Bool.false_eq_true, if_false] at h ⊢
      rw [if_neg h.1, if_neg h.2]
      rfl
    · simp only [if_true] at h ⊢
      rw [if_neg h.1, if_neg h.2]
      rfl

private theorem parse_ok {ver : Nat} {v6 : Bool} (rest : List Nat) : ∀ (ns : List Note) (n : Note)
    (fuel : Nat) (l : List Hna), (∀ x ∈ n :: ns, x.Ok ver v6) → ns.length < fuel →
    parse ver v6 fuel (((n :: ns).map (Note.bytes ver v6)).flatten ++ rest)
      ((n :: ns).map (Note.bytes ver v6)).flatten.length l = .ok ((n :: ns).foldl (Note.apply v6) l)
  | ns, n, 0, l, _, h => by omega
  | ns, n, fuel + 1, l, hok, hfuel => by
    have hn := hok n List.mem_cons_self
    obtain ⟨R, hR⟩ : ∃ R, R = (ns.map (Note.bytes ver v6)).flatten ++ rest := ⟨_, rfl⟩
    obtain ⟨H, h1, h2, h3, h4, h5⟩ := bytes_split ver v6 n R
    have hm : ((n :: ns).map (Note.bytes ver v6)).flatten ++ rest = n.bytes ver v6 ++ R := by
      rw [hR]; simp
    have hH : 3 ≤ H.length := by rw [h1]; split <;> omega
    rw [hm]
    unfold parse
    have hrd : ∃ y, rd 2 (n.bytes ver v6 ++ R) = some ((n.bytes ver v6 ++ R).take 2, y) := by
      unfold rd
      rw [if_pos (by rw [List.length_append, h3]; omega)]
      exact ⟨_, rfl⟩
    obtain ⟨y, hrd⟩ := hrd
    rw [hrd]
    simp only []
    have hg : get16 ((n.bytes ver v6 ++ R).take 2) 0 = (n.bytes ver v6).length := by
      have := get16_prefix ((n.bytes ver v6 ++ R).take 2) ((n.bytes ver v6 ++ R).drop 2) (i := 0)
        (by rw [List.length_take, List.length_append, h3]; omega)
      rw [this, List.take_append_drop, h2, h4 hn]
    rw [hg, if_neg (by omega), h2, h5 hn, ← h2]
    simp only []
    rw [dispatch_ok hn]
    simp only [List.map_cons, List.flatten_cons, List.length_append, List.foldl_cons]
    cases ns with
    | nil => simp
    | cons n2 ns =>
      have hpos : 0 < ((n2 :: ns).map (Note.bytes ver v6)).flatten.length := by
        obtain ⟨H2, g1, _, g3, _⟩ := bytes_split ver v6 n2 []
        simp only [List.map_cons, List.flatten_cons, List.length_append]
        rw [g3, g1]
        split <;> omega
      rw [if_neg (by omega), List.drop_left, hR, Nat.add_sub_cancel_left]
      exact parse_ok rest ns n2 fuel _ (fun x hx => hok x (List.mem_cons_of_mem _ hx))
        (by simp only [List.length_cons] at hfuel; omega)

/-- **C109 (part).** From any packets that zebra may send, `zparse` adds and removes the HNA entries
the messages name, in their order, and ignores every other message.  Missing: messages that zebra
does not send, see below. -/
theorem C109_parse_partial {ver : Nat} {v6 : Bool} (hv : ver ≤ 2) (n : Note) (ns : List Note)
    (hok : ∀ x ∈ n :: ns, x.Ok ver v6) (l : List (List Nat × Nat)) :
    zparse ver v6 ((n :: ns).map (Note.bytes ver v6)).flatten l =
      .ok ((n :: ns).foldl (Note.apply v6) l) := by
  unfold zparse memory
  rw [if_neg (by omega)]
  apply parse_ok _ _ _ _ _ hok
  have hl : ∀ ms : List Note, 3 * ms.length ≤ (ms.map (Note.bytes ver v6)).flatten.length := by
    intro ms
    induction ms with
    | nil => simp
    | cons m ms ih =>
      obtain ⟨H, g1, _, g3, _⟩ := bytes_split ver v6 m []
      have : 3 ≤ H.length := by rw [g1]; split <;> omega
      simp only [List.map_cons, List.flatten_cons, List.length_append, List.length_cons]
      omega
  have := hl (n :: ns)
  simp only [List.length_cons] at this
  omega

/-- **C109 (part).** Every field of a route is read as zebra wrote it. -/
theorem C109_route_partial {ver : Nat} {v6 : Bool} {t : Told} (hn : (Note.add t).Ok ver v6)
    (rest : List Nat) :
    ∃ r, parseRoute ver v6 ((Note.add t).bytes ver v6 ++ rest) = .ok r ∧ r.pfx = t.hna.1 ∧
      r.plen = t.plen ∧ r.type = t.type ∧ r.flags = t.flags ∧ r.nexthops = t.hops.getD [] ∧
      r.ifindex = t.ifaces.getD [] ∧ r.metric = t.metric.getD 0 ∧ r.distance = t.distance.getD 0 :=
  parseRoute_ok hn rfl hn.2.2 rest

private def ex1 : Told := ⟨4, 0, 24, [10, 1, 2], some [[192, 168, 0, 1]], some [3], none, some 20⟩
private def ex2 : Told := ⟨4, 0, 0, [], none, some [7], some 110, none⟩

example : (∀ x ∈ [Note.add ex1, .other 23 [1, 2], .add ex2, .del ex1], x.Ok 1 false) ∧
    zparse 1 false ([Note.add ex1, .other 23 [1, 2], .add ex2, .del ex1].map (Note.bytes 1 false)).flatten
      [([10, 9, 9, 9] ++ List.replicate 12 0, 32)] =
      .ok [(List.replicate 16 0, 0), ([10, 9, 9, 9] ++ List.replicate 12 0, 32)] := by
  refine ⟨?_, by decide +kernel⟩
  intro x hx
  simp only [List.mem_cons, List.not_mem_nil, or_false] at hx
  rcases hx with rfl | rfl | rfl | rfl
  · refine ⟨by decide +kernel, by decide, by decide, by decide, ?_, ?_, ?_⟩
    · rintro h ⟨⟩; simp
    · rintro h ⟨⟩; simp
    · rintro h ⟨⟩; decide
  · exact ⟨by decide +kernel, by decide, by decide⟩
  · refine ⟨by decide +kernel, by decide, by decide, by decide, ?_, ?_, ?_⟩
    · rintro h ⟨⟩
    · rintro h ⟨⟩; simp
    · rintro h ⟨⟩
  · refine ⟨by decide +kernel, by decide, by decide, by decide, ?_, ?_, ?_⟩
    · rintro h ⟨⟩; simp
    · rintro h ⟨⟩; simp
    · rintro h ⟨⟩; decide

/-- **C109 (part).** olsrd ends when a packet does not have the marker and the version. -/
theorem C109_header_partial {ver : Nat} (v6 : Bool) (hv : ver = 1 ∨ ver = 2) (p : List Nat)
    (l : List (List Nat × Nat)) (hl : 6 ≤ p.length)
    (hp : (p.drop 2).take 2 ≠ [255, ver]) : zparse ver v6 p l = .exit := by
  match p, hl with
  | a :: b :: c :: d :: e :: f :: r, _ =>
    simp only [List.drop_succ_cons, List.drop_zero, List.take_succ_cons, List.take_zero] at hp
    have hne : ver ≠ 0 := by omega
    unfold zparse memory
    rw [if_neg (by omega)]
    obtain ⟨n, hn⟩ : ∃ n, (a :: b :: c :: d :: e :: f :: r).length = n + 1 := ⟨_, rfl⟩
    obtain ⟨k, hk⟩ : ∃ k, ((a :: b :: c :: d :: e :: f :: r).length + 4095) / 4096 * 4096
      - (a :: b :: c :: d :: e :: f :: r).length = k := ⟨_, rfl⟩
    rw [hk, hn]
    simp only [List.cons_append]
    obtain ⟨R, hR⟩ : ∃ R, r ++ List.replicate k 0 = R := ⟨_, rfl⟩
    rw [hR]
    have h1 : rd 2 (a :: b :: c :: d :: e :: f :: R) = some ([a, b], c :: d :: e :: f :: R) := by simp [rd]
    have h6 : rd 6 (a :: b :: c :: d :: e :: f :: R) = some ([a, b, c, d, e, f], R) := by simp [rd]
    have h2 : command ver (a :: b :: c :: d :: e :: f :: R) = .exit := by
      unfold command
      rw [if_neg hne, h6]
      simp only [List.getD_cons_zero, List.getD_cons_succ]
      rw [if_pos]
      by_cases hc : c = 255
      · exact Or.inr fun hd => hp (by rw [hc, hd])
      · exact Or.inl hc
    unfold parse
    rw [h1]
    simp only []
    rw [h2]
    split <;> rfl

/-- **C109 (part).** olsrd ends when the fields of a route do not fill the packet exactly: here the
length is any but the right one. -/
theorem C109_length_partial {ver : Nat} {v6 : Bool} {t : Told} (ht : t.Ok v6) (a b : Nat)
    (hdr rest : List Nat) (hh : hdr.length = if ver = 0 then 1 else 4)
    (hab : a * 256 + b ≠ 2 + hdr.length + (t.bytes ver).length) :
    parseRoute ver v6 ([a, b] ++ hdr ++ t.bytes ver ++ rest) = .exit := by
  unfold parseRoute
  have hl : ([a, b] ++ hdr).length = if ver = 0 then 3 else 6 := by
    rw [List.length_append, hh]; split <;> rfl
  rw [List.append_assoc ([a, b] ++ hdr), rd_append' hl]
  simp only []
  rw [fields_ok ht]
  simp only []
  have hg : get16 ([a, b] ++ hdr ++ (t.bytes ver ++ rest)) 0 = a * 256 + b := by simp [get16]
  rw [hg, if_neg]
  simp only [List.length_append, List.length_cons, List.length_nil]
  omega

/-- Next hops that are missing in the packet are read from the cleared rest of the buffer. -/
example : zparse 1 false [0, 11, 255, 1, 0, 7, 4, 0, 1, 0, 5] [] = .exit := by decide +kernel

/-- **C109, false in general.** A prefix length above 128 makes `zparse_route` write past the prefix,
over the pointer that is freed later. -/
theorem C109_prefix_overflow : ∃ p : List Nat, Framed p ∧ zparse 1 false p [] = .ub :=
  ⟨[0, 42, 255, 1, 0, 7, 4, 0, 0, 255] ++ List.replicate 32 1, by simp [Framed, be16], by decide +kernel⟩

/-- **C109, false in general.** The counts in a message are believed: one at the end of a full buffer
is read past its end. -/
theorem C109_read_overflow : ∃ p q : List Nat, Framed p ∧ Framed q ∧ (p ++ q).length = 4096 ∧
    zparse 1 false (p ++ q) [] = .ub :=
  ⟨[15, 245, 255, 1, 0, 23] ++ List.replicate 4079 0, [0, 11, 255, 1, 0, 7, 4, 0, 1, 0, 200],
    by unfold Framed; decide +kernel, by unfold Framed; decide +kernel, by decide +kernel,
    by decide +kernel⟩

/-- **C109, false in general.** For IPv4 a prefix length above 32 is accepted and announced. -/
theorem C109_prefix_unchecked : ∃ p : List Nat, Framed p ∧
    zparse 1 false p [] = .ok [([1, 1, 1, 1, 1] ++ List.replicate 11 0, 40)] :=
  ⟨[0, 15, 255, 1, 0, 7, 4, 0, 0, 40, 1, 1, 1, 1, 1], by simp [Framed, be16], by decide +kernel⟩

/-! ### C110: the HNA entries and the routes of zebra -/

/-- The routes zebra has told of. -/
def Note.routes (rs : List (List Nat × Nat)) : Note → List (List Nat × Nat)
  | .add t => t.hna :: rs
  | .del t => rs.erase t.hna
  | .other _ _ => rs

/-- Zebra adds no route it has told of and removes only such. -/
def Sound : List (List Nat × Nat) → List Note → Prop
  | _, [] => True
  | rs, n :: ns =>
    (match n with
      | .add t => t.hna ∉ rs
      | .del t => t.hna ∈ rs
      | .other _ _ => True) ∧ Sound (n.routes rs) ns

/-- An entry as olsrd makes it: 16 bytes, after an IPv4 address zeros. -/
def Full (v6 : Bool) (e : List Nat × Nat) : Prop :=
  e.1.length = 16 ∧ (v6 = false → e.1.drop 4 = List.replicate 12 0)

private theorem full_inj {v6 : Bool} {a b : List Nat × Nat} (ha : Full v6 a) (hb : Full v6 b)
    (h : a.1.take (if v6 then 16 else 4) = b.1.take (if v6 then 16 else 4)) (h2 : a.2 = b.2) : a = b := by
  have h1 : a.1 = b.1 := by
    cases v6
    · simp only [Bool.false_eq_true, if_false] at h
      rw [← List.take_append_drop 4 a.1, ← List.take_append_drop 4 b.1, h, ha.2 rfl, hb.2 rfl]
    · simp only [if_true] at h
      rwa [List.take_of_length_le (by rw [ha.1]; omega), List.take_of_length_le (by rw [hb.1]; omega)] at h
  exact Prod.ext h1 h2

private theorem full_hna {v6 : Bool} {t : Told} (h : t.Ok v6) : Full v6 t.hna := by
  obtain ⟨h1, h2, _⟩ := h
  have hl : t.pfx.length ≤ if v6 then 16 else 4 := by
    rw [h2]
    split at h1 <;> simp_all <;> omega
  have hl16 : t.pfx.length ≤ 16 := by split at hl <;> omega
  refine ⟨by simp [Told.hna]; omega, ?_⟩
  intro hv
  subst hv
  simp only [Bool.false_eq_true, if_false] at hl
  simp only [Told.hna]
  rw [List.drop_append, List.drop_eq_nil_of_le hl, List.nil_append, List.drop_replicate]
  congr 1
  omega

private theorem eraseP_erase {v6 : Bool} {t : Told} (ht : Full v6 t.hna) : ∀ l : List (List Nat × Nat),
    (∀ e ∈ l, Full v6 e) → Note.apply v6 l (.del t) = l.erase t.hna
  | [], _ => rfl
  | x :: l, h => by
    have ih := eraseP_erase ht l (fun e he => h e (List.mem_cons_of_mem _ he))
    simp only [Note.apply] at ih ⊢
    rw [List.eraseP_cons, List.erase_cons, ih]
    by_cases hx : x = t.hna
    · subst hx
      simp [Told.hna]
    · have h1 : (x == t.hna) = false := by simpa using hx
      have h2 : (decide (x.1.take (if v6 then 16 else 4) = t.hna.1.take (if v6 then 16 else 4)) &&
          x.2 == t.plen) = false := by
        rw [Bool.and_eq_false_iff]
        by_cases h1 : x.1.take (if v6 then 16 else 4) = t.hna.1.take (if v6 then 16 else 4)
        · refine Or.inr ?_
          have : ¬ x.2 = t.plen := fun h2 => hx (full_inj (h x List.mem_cons_self) ht h1 h2)
          simpa using this
        · exact Or.inl (by simpa using h1)
      rw [h1, h2]
      rfl

/-- **C110 (part).** While the connection stands, the HNA entries are those of the configuration
together with the routes zebra has told of, each once, also when both name the same network.
Missing: a new connection, see below. -/
theorem C110_entries_partial {ver : Nat} {v6 : Bool} : ∀ (ns : List Note)
    (rs cfg l : List (List Nat × Nat)), (∀ x ∈ ns, x.Ok ver v6) → Sound rs ns →
    (∀ e ∈ l, Full v6 e) → l.Perm (rs ++ cfg) →
    (ns.foldl (Note.apply v6) l).Perm (ns.foldl Note.routes rs ++ cfg)
  | [], _, _, _, _, _, _, hp => hp
  | n :: ns, rs, cfg, l, hok, hs, hf, hp => by
    simp only [List.foldl_cons]
    have hn := hok n List.mem_cons_self
    cases n with
    | add t =>
      refine C110_entries_partial ns _ cfg _ (fun x hx => hok x (List.mem_cons_of_mem _ hx)) hs.2 ?_
        (List.Perm.cons _ hp)
      intro e he
      rcases List.mem_cons.1 he with rfl | he
      · exact full_hna hn.2.2
      · exact hf e he
    | del t =>
      have hmem : t.hna ∈ rs := hs.1
      refine C110_entries_partial ns _ cfg _ (fun x hx => hok x (List.mem_cons_of_mem _ hx)) hs.2 ?_ ?_
      · intro e he
        rw [eraseP_erase (full_hna hn.2.2) l hf] at he
        exact hf e (List.mem_of_mem_erase he)
      · rw [eraseP_erase (full_hna hn.2.2) l hf]
        have := hp.erase t.hna
        rwa [List.erase_append_left _ hmem] at this
    | other c p =>
      exact C110_entries_partial ns _ cfg _ (fun x hx => hok x (List.mem_cons_of_mem _ hx)) hs.2 hf hp

example : Sound [] [Note.add ex1, .other 23 [1, 2], .add ex2, .del ex1] ∧
    [Note.add ex1, .other 23 [1, 2], .add ex2, .del ex1].foldl Note.routes [] = [ex2.hna] := by
  refine ⟨?_, by decide +kernel⟩
  simp [Sound, Note.routes, Told.hna, ex1, ex2]

/-- **C110, false in general.** After a new connection zebra tells of all its routes again.  Those of
the old connection stay in the list: a route that zebra has lost meanwhile is announced for ever, and
the others are there twice. -/
theorem C110_reconnect {ver : Nat} {v6 : Bool} (old new : List Note) (cfg : List (List Nat × Nat))
    (ho : ∀ x ∈ old, x.Ok ver v6) (hn : ∀ x ∈ new, x.Ok ver v6) (hso : Sound [] old)
    (hsn : Sound [] new) (hc : ∀ e ∈ cfg, Full v6 e) :
    ((old ++ new).foldl (Note.apply v6) cfg).Perm
      (new.foldl Note.routes [] ++ (old.foldl Note.routes [] ++ cfg)) := by
  rw [List.foldl_append]
  have h1 := C110_entries_partial (ver := ver) (v6 := v6) old [] cfg cfg ho hso hc (List.Perm.refl _)
  refine C110_entries_partial (ver := ver) (v6 := v6) new [] _ _ hn hsn ?_ h1
  intro e he
  have hmem := h1.mem_iff.1 he
  have hr : ∀ (ns : List Note) (rs : List (List Nat × Nat)), (∀ x ∈ ns, x.Ok ver v6) →
      (∀ e ∈ rs, Full v6 e) → ∀ e ∈ ns.foldl Note.routes rs, Full v6 e := by
    intro ns
    induction ns with
    | nil => intro rs _ h e he; exact h e he
    | cons n ns ih =>
      intro rs hx h e he
      refine ih _ (fun x hx' => hx x (List.mem_cons_of_mem _ hx')) ?_ e he
      intro e he
      have hn := hx n List.mem_cons_self
      cases n with
      | add t =>
        rcases List.mem_cons.1 he with rfl | he
        · exact full_hna hn.2.2
        · exact h e he
      | del t => exact h e (List.mem_of_mem_erase he)
      | other c p => exact h e he
  rcases List.mem_append.1 hmem with h | h
  · exact hr old [] ho (by intro e he; cases he) e h
  · exact hc e h

example : ([Note.add ex1, .add ex2] ++ [Note.add ex2]).foldl (Note.apply false) [] =
    [ex2.hna, ex2.hna, ex1.hna] := by decide +kernel

end Verif.Zebra
