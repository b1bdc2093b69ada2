import Verif.FgwLemmas

/-!
# C138: the gateway filter takes the gateways out of the HNA messages
-/

namespace Verif.Fgw

/-! ### Specification -/

/-- an HNA message: validity time, originator, the four bytes TTL, hop count and sequence number, entries -/
structure Msg where
  vt : Nat
  orig : List Nat
  tl : List Nat
  ents : List (List Nat × List Nat)

/-- sizes of the parts; the whole fits the size field -/
def Msg.Ok (v6 : Bool) (g : Msg) : Prop :=
  g.orig.length = ipsz v6 ∧ g.tl.length = 4 ∧ (∀ e ∈ g.ents, e.1.length = ipsz v6 ∧ e.2.length = ipsz v6) ∧
    8 + ipsz v6 + 2 * ipsz v6 * g.ents.length < 65536

/-- the bytes of the message -/
def Msg.encode (v6 : Bool) (g : Msg) : List Nat :=
  [4, g.vt] ++ [(8 + ipsz v6 + 2 * ipsz v6 * g.ents.length) / 256 % 256, (8 + ipsz v6 + 2 * ipsz v6 * g.ents.length) % 256] ++
    g.orig ++ g.tl ++ (g.ents.map (fun e => e.1 ++ e.2)).flatten

/-- an entry that announces the Internet: for IPv4 the address 0.0.0.0 with a mask that starts with a zero byte
(the other three may hold the smart gateway data); for IPv6 a mask of length 3 (with any address), or
`::ffff:0:0/96` -/
def gateway : Bool → List Nat × List Nat → Bool
  | false, e => e.1 == [0, 0, 0, 0] && e.2.take 1 == [0]
  | true, e => e.2.take 1 == [224] ||
      (e.2.take 13 == List.replicate 12 255 ++ [0] && e.1.take 12 == [0, 0, 0, 0, 0, 0, 0, 0, 0, 0, 255, 255])

/-- the originators named by the parameters -/
def named (ps : List Param) : List (List Nat) :=
  ps.filterMap (fun p => match p with | .originator a => some a | _ => none)

/-- the last value of `allowlist` -/
def allowOf (ps : List Param) : Int :=
  ps.foldl (fun n p => match p with | .allowlist k => k | _ => n) 0

/-! ### The gateways -/

private theorem lastByte_inv {b k : Nat} (h : Ipcalc.lastByte b = some k) (hb : b ≠ 255) :
    k < 8 ∧ (k = 0 ↔ b = 0) ∧ (k = 3 ↔ b = 224) := by
  unfold Ipcalc.lastByte at h
  by_cases h0 : b = 0
  · rw [if_pos h0] at h; cases h; omega
  rw [if_neg h0] at h
  by_cases h1 : b = 128
  · rw [if_pos h1] at h; cases h; omega
  rw [if_neg h1] at h
  by_cases h2 : b = 192
  · rw [if_pos h2] at h; cases h; omega
  rw [if_neg h2] at h
  by_cases h3 : b = 224
  · rw [if_pos h3] at h; cases h; omega
  rw [if_neg h3] at h
  by_cases h4 : b = 240
  · rw [if_pos h4] at h; cases h; omega
  rw [if_neg h4] at h
  by_cases h5 : b = 248
  · rw [if_pos h5] at h; cases h; omega
  rw [if_neg h5] at h
  by_cases h6 : b = 252
  · rw [if_pos h6] at h; cases h; omega
  rw [if_neg h6] at h
  by_cases h7 : b = 254
  · rw [if_pos h7] at h; cases h; omega
  rw [if_neg h7, if_neg hb] at h
  cases h

private theorem ntp_ge : ∀ (m : List Nat) (p : Nat), p + 8 * m.length < 256 → p ≤ Ipcalc.netmaskToPrefix m p
  | [], p, h => by unfold Ipcalc.netmaskToPrefix; simp at h; omega
  | b :: r, p, h => by
    unfold Ipcalc.netmaskToPrefix
    simp only [List.length_cons] at h
    by_cases hb : b = 255
    · rw [if_pos hb, show (p + 8) % 65536 = p + 8 by omega]
      have := ntp_ge r (p + 8) (by omega)
      omega
    · rw [if_neg hb]
      cases hl : Ipcalc.lastByte b with
      | none => simp only []; omega
      | some k =>
        simp only []
        have := lastByte_inv hl hb
        omega

private theorem ntp_small (b : Nat) (r : List Nat) (h : 8 + 8 * r.length < 256) :
    (Ipcalc.toPrefix (b :: r) = 0 ↔ b = 0) ∧ (Ipcalc.toPrefix (b :: r) = 3 ↔ b = 224) := by
  unfold Ipcalc.toPrefix Ipcalc.netmaskToPrefix
  by_cases hb : b = 255
  · rw [if_pos hb, show (0 + 8) % 65536 = 8 from rfl]
    have := ntp_ge r 8 h
    omega
  · rw [if_neg hb]
    cases hl : Ipcalc.lastByte b with
    | none =>
      simp only []
      have : b ≠ 0 := by intro h0; subst h0; exact absurd hl (by decide)
      have : b ≠ 224 := by intro h0; subst h0; exact absurd hl (by decide)
      omega
    | some k =>
      simp only []
      have := lastByte_inv hl hb
      omega

private theorem ntp_96 : ∀ (n : Nat) (m : List Nat), n ≤ 12 → n < m.length → m.length ≤ n + 4 →
    (Ipcalc.netmaskToPrefix m (96 - 8 * n) = 96 ↔ m.take (n + 1) = List.replicate n 255 ++ [0])
  | 0, [], _, h, _ => by simp at h
  | 0, b :: r, _, _, h => by
    simp only [List.length_cons] at h
    unfold Ipcalc.netmaskToPrefix
    by_cases hb : b = 255
    · have := ntp_ge r 104 (by omega)
      subst hb
      rw [if_pos rfl, show (96 - 8 * 0 + 8) % 65536 = 104 from rfl]
      constructor
      · intro h'; omega
      · intro h'; simp at h'
    · rw [if_neg hb]
      cases hl : Ipcalc.lastByte b with
      | none =>
        simp only []
        constructor
        · intro h'; omega
        · intro h'
          have h0 : b = 0 := by simpa using h'
          subst h0; exact absurd hl (by decide)
      | some k =>
        simp only []
        have hk := lastByte_inv hl hb
        constructor
        · intro h'
          have : b = 0 := hk.2.1.1 (by omega)
          subst this; rfl
        · intro h'
          have h0 : b = 0 := by simpa using h'
          have := hk.2.1.2 h0
          omega
  | n + 1, [], _, h, _ => by simp at h
  | n + 1, b :: r, hn, h, h2 => by
    simp only [List.length_cons] at h h2
    have ih := ntp_96 n r (by omega) (by omega) (by omega)
    unfold Ipcalc.netmaskToPrefix
    by_cases hb : b = 255
    · rw [if_pos hb, show (96 - 8 * (n + 1) + 8) % 65536 = 96 - 8 * n by omega, ih]
      subst hb
      simp [List.replicate_succ]
    · rw [if_neg hb]
      cases hl : Ipcalc.lastByte b with
      | none =>
        simp only []
        constructor
        · intro h'; omega
        · intro h'; simp [List.replicate_succ] at h'; exact absurd h'.1 hb
      | some k =>
        simp only []
        have hk := lastByte_inv hl hb
        constructor
        · intro h'; omega
        · intro h'; simp [List.replicate_succ] at h'; exact absurd h'.1 hb

/-- Of an entry with address and mask of the right size: it is treated as a gateway exactly if it announces
0.0.0.0 with a mask that starts with a zero byte (IPv4), or has a mask of length 3, or is `::ffff:0:0/96`
(IPv6). -/
theorem C138_gateway (v6 : Bool) (e : List Nat × List Nat) (h1 : e.1.length = ipsz v6) (h2 : e.2.length = ipsz v6) :
    isGw v6 e.1 e.2 = gateway v6 e := by
  obtain ⟨a, k⟩ := e
  simp only at h1 h2 ⊢
  cases v6 with
  | false =>
    rw [show ipsz false = 4 from rfl] at h2
    match k, h2 with
    | b :: r, h2 =>
      have h := ntp_small b r (by simp at h2; omega)
      simp only [isGw, gateway, List.take_succ_cons, List.take_zero]
      rw [Bool.eq_iff_iff]
      simp [h.1]
      exact And.comm
  | true =>
    rw [show ipsz true = 16 from rfl] at h2
    match k, h2 with
    | b :: r, h2 =>
      have h := ntp_small b r (by simp at h2; omega)
      have h96 := ntp_96 12 (b :: r) (by omega) (by omega) (by omega)
      rw [Bool.eq_iff_iff]
      simp only [isGw, gateway, Ipcalc.isInetGw6, Ipcalc.isV6InetGw, Ipcalc.isMapped4InetGw, if_true, Bool.or_eq_true, Bool.and_eq_true,
        beq_iff_eq, h.2]
      rw [show Ipcalc.toPrefix (b :: r) = Ipcalc.netmaskToPrefix (b :: r) (96 - 8 * 12) from rfl, h96]
      simp

example : gateway false ([0, 0, 0, 0], [0, 3, 7, 9]) = true ∧ gateway false ([0, 0, 0, 0], [128, 0, 0, 0]) = false ∧
    gateway false ([10, 0, 0, 0], [0, 0, 0, 0]) = false := by decide

/-- 4000::/3 counts as the Internet -/
example : gateway true (64 :: List.replicate 15 0, 224 :: List.replicate 15 0) = true := by decide

/-! ### The lists -/

private theorem setParams_allow : ∀ (ps : List Param) (c : Conf),
    (setParams c ps).allow = ps.foldl (fun n p => match p with | .allowlist k => k | _ => n) c.allow
  | [], _ => rfl
  | p :: ps, c => by
    cases p <;> exact setParams_allow ps _

private theorem setParams_mem : ∀ (ps : List Param) (c : Conf) (o : List Nat),
    o ∈ (setParams c ps).group.getD [] ↔ o ∈ named ps ∨ o ∈ c.group.getD []
  | [], _, _ => by simp [setParams, named]
  | .originator a :: ps, c, o => by
    rw [setParams, setParams_mem ps]
    simp only [setParam, named, Option.getD_some, List.mem_cons, List.filterMap_cons]
    constructor
    · rintro (h | h | h)
      · exact Or.inl (Or.inr h)
      · exact Or.inl (Or.inl h)
      · exact Or.inr h
    · rintro ((h | h) | h)
      · exact Or.inr (Or.inl h)
      · exact Or.inl h
      · exact Or.inr (Or.inr h)
  | .bogus :: ps, c, o => by
    rw [setParams, setParams_mem ps]; rfl
  | .allowlist n :: ps, c, o => by
    rw [setParams, setParams_mem ps]; rfl

/-- Whose messages are filtered: with `allowlist` set, those of every originator that is not named; without it,
those of the originators that are named. -/
theorem C138_lists (ps : List Param) (o : List Nat) :
    shouldFilter (setParams conf0 ps) o = if allowOf ps ≠ 0 then !(named ps).contains o else (named ps).contains o := by
  have ha : (setParams conf0 ps).allow = allowOf ps := setParams_allow ps conf0
  have hm : o ∈ (setParams conf0 ps).group.getD [] ↔ o ∈ named ps := by
    rw [setParams_mem ps conf0 o]; simp [conf0]
  have hc : ((setParams conf0 ps).group.getD []).contains o = (named ps).contains o := by
    rw [Bool.eq_iff_iff]; simp only [List.contains_iff_mem]; exact hm
  unfold shouldFilter
  rw [ha, ← hc]
  cases (setParams conf0 ps).group with
  | none => by_cases h : allowOf ps = 0 <;> simp [h]
  | some l => by_cases h : allowOf ps = 0 <;> simp [h]

example : named [.originator [10, 0, 0, 1], .bogus, .allowlist 1, .originator [10, 0, 0, 2]] = [[10, 0, 0, 1], [10, 0, 0, 2]] ∧
    allowOf [.originator [10, 0, 0, 1], .bogus, .allowlist 1, .originator [10, 0, 0, 2]] = 1 := by decide

/-- An originator makes the plugin crash when it is unloaded: the group is freed and then read again, without
end.  Without one nothing happens. -/
theorem C138_fini (ps : List Param) : fini (setParams conf0 ps) = none ↔ named ps ≠ [] := by
  have hg : ∀ (ps : List Param) (c : Conf), (setParams c ps).group = none ↔ named ps = [] ∧ c.group = none := by
    intro ps
    induction ps with
    | nil => intro c; simp [setParams, named]
    | cons p ps ih =>
      intro c
      rw [setParams, ih]
      cases p <;> simp [setParam, named]
  have h : (setParams conf0 ps).group = none ↔ named ps = [] := by rw [hg ps conf0]; simp [conf0]
  unfold fini
  cases h' : (setParams conf0 ps).group with
  | none => simp [h.1 h']
  | some l =>
    simp only [true_iff]
    intro hn
    rw [h.2 hn] at h'; cases h'

example : fini (setParams conf0 [.originator [10, 0, 0, 1]]) = none ∧ fini (setParams conf0 [.allowlist 1]) = some () := by decide

/-! ### The messages -/

private theorem flat_eq : ∀ es : List (List Nat × List Nat), flat es = (es.map (fun e => e.1 ++ e.2)).flatten
  | [] => rfl
  | e :: es => by simp [flat, flat_eq es]

private theorem encode_eq (v6 : Bool) (g : Msg) :
    g.encode v6 = hd g.vt (8 + ipsz v6 + 2 * ipsz v6 * g.ents.length) g.orig g.tl ++ flat g.ents := by
  simp [Msg.encode, hd, flat_eq]

private theorem keep_eq {v6 : Bool} {es : List (List Nat × List Nat)} (h : ∀ e ∈ es, EntOk v6 e) :
    keep v6 es = es.filter (fun e => !gateway v6 e) :=
  List.filter_congr (fun e he => by rw [C138_gateway v6 e (h e he).1 (h e he).2])

private theorem filter_split (l : List (List Nat × List Nat)) (q : List Nat × List Nat → Bool) :
    (l.filter q).length + (l.filter (fun e => !q e)).length = l.length := by
  induction l with
  | nil => rfl
  | cons a l ih => cases hq : q a <;> simp [hq] <;> omega

private theorem mod_zero (v6 : Bool) (k : Nat) :
    ((8 + ipsz v6 + 2 * ipsz v6 * k : Nat) - 8 - ipsz v6 : Int) % (2 * (ipsz v6 : Int)) = 0 := by
  rw [show ((8 + ipsz v6 + 2 * ipsz v6 * k : Nat) - 8 - ipsz v6 : Int) = (2 * (ipsz v6 : Int)) * k by
    simp only [Int.natCast_add, Int.natCast_mul, show ((8 : Nat) : Int) = 8 from rfl, show ((2 : Nat) : Int) = 2 from rfl]; omega]
  exact Int.mul_emod_right ..

private theorem core_spec {v6 : Bool} (sym : Bool) (g : Msg) (rest : List Nat) (h : g.Ok v6) :
    core v6 sym (g.encode v6 ++ rest) = some (sym, if sym then g.ents else []) := by
  obtain ⟨ho, ht, he, hs⟩ := h
  obtain ⟨N, hN⟩ : ∃ N, N = 8 + ipsz v6 + 2 * ipsz v6 * g.ents.length := ⟨_, rfl⟩
  have hl : (hd g.vt N g.orig g.tl).length = 8 + ipsz v6 := by rw [hd_length, ho, ht]; omega
  unfold core
  rw [encode_eq, ← hN, List.append_assoc, ty_hd, get16_hd (by omega)]
  simp only []
  rw [if_pos trivial, if_neg (by rw [List.length_append, hl]; omega), if_neg (by rw [hN, mod_zero]; decide)]
  cases sym with
  | false => rfl
  | true =>
    rw [if_pos rfl, ← List.append_assoc]
    have hr := readLoop_spec (v6 := v6) g.ents (hd g.vt N g.orig g.tl) rest (N + 1) he (by
      have := Nat.le_mul_of_pos_left g.ents.length (show 0 < 2 * ipsz v6 by have := ipsz_pos v6; omega)
      omega)
    rw [hl, ← hN] at hr
    rw [hr]
    rfl

private theorem filter_pass {v6 : Bool} {c : Conf} (g : Msg) (rest : List Nat) (h : g.Ok v6) (hf : shouldFilter c g.orig = false) :
    filter v6 c (g.encode v6 ++ rest) = some (true, g.encode v6 ++ rest) := by
  obtain ⟨ho, ht, he, hs⟩ := h
  unfold filter
  rw [encode_eq, List.append_assoc, ty_hd, get16_hd hs, orig_hd ho]
  simp only []
  rw [if_pos trivial, if_neg (by rw [hf]; decide)]

private theorem filter_loop {v6 : Bool} {c : Conf} (g : Msg) (rest : List Nat) (h : g.Ok v6) (hf : shouldFilter c g.orig = true) :
    filter v6 c (g.encode v6 ++ rest) =
      loop v6 (8 + ipsz v6 + 2 * ipsz v6 * g.ents.length + 1)
        (hd g.vt (8 + ipsz v6 + 2 * ipsz v6 * g.ents.length) g.orig g.tl ++ flat g.ents ++ rest) (8 + ipsz v6) (8 + ipsz v6)
        (8 + ipsz v6 + 2 * ipsz v6 * g.ents.length) ((2 * ipsz v6 * g.ents.length : Nat) : Int)
        (8 + ipsz v6 + 2 * ipsz v6 * g.ents.length) := by
  obtain ⟨ho, ht, he, hs⟩ := h
  obtain ⟨N, hN⟩ : ∃ N, N = 8 + ipsz v6 + 2 * ipsz v6 * g.ents.length := ⟨_, rfl⟩
  have hl : (hd g.vt N g.orig g.tl).length = 8 + ipsz v6 := by rw [hd_length, ho, ht]; omega
  unfold filter
  rw [encode_eq, ← hN, List.append_assoc, ty_hd, get16_hd (by omega), orig_hd ho]
  simp only []
  rw [if_pos trivial, if_pos hf, if_neg (by rw [List.length_append, hl]; omega), if_neg (by rw [hN, mod_zero]; decide), ← List.append_assoc,
    show (N : Int) - 8 - (ipsz v6 : Int) = ((2 * ipsz v6 * g.ents.length : Nat) : Int) by omega]

private theorem input_eq {v6 sym : Bool} {c : Conf} {m m1 : List Nat} {b b1 : Bool} {l : List (List Nat × List Nat)}
    (h1 : filter v6 c m = some (b, m1)) (h2 : core v6 sym m1 = some (b1, l)) :
    input v6 sym c m = some { m := m1, learned := l, forward := b && b1 } := by
  simp [input, registered, addFunction, dispatch, call, h1, h2]

/-- **Messages with something other than gateways.**  Of a message of a filtered originator that names at least one
network that is no gateway, the daemon processes exactly the other networks, in their order; what goes on to be
forwarded is the message with exactly these entries and the size that belongs to them; the rest of the packet
stays where it is. -/
theorem C138_filtered_partial (v6 sym : Bool) (c : Conf) (g : Msg) (rest : List Nat) (h : g.Ok v6)
    (hf : shouldFilter c g.orig = true) (hn : ∃ e ∈ g.ents, gateway v6 e = false) :
    ∃ junk : List Nat, junk.length = 2 * ipsz v6 * (g.ents.filter (gateway v6)).length ∧
      input v6 sym c (g.encode v6 ++ rest) =
        some { m := { g with ents := g.ents.filter (fun e => !gateway v6 e) }.encode v6 ++ junk ++ rest,
               learned := if sym then g.ents.filter (fun e => !gateway v6 e) else [], forward := sym } := by
  have hk := keep_eq h.2.2.1
  obtain ⟨x, hx, hxg⟩ := hn
  have hne : keep v6 g.ents ≠ [] := by
    rw [hk]; intro h0
    have : x ∈ g.ents.filter (fun e => !gateway v6 e) := List.mem_filter.2 ⟨hx, by rw [hxg]; rfl⟩
    rw [h0] at this; cases this
  have hmul := Nat.le_mul_of_pos_left g.ents.length (show 0 < 2 * ipsz v6 by have := ipsz_pos v6; omega)
  obtain ⟨j, hj, hl⟩ := loop_spec (vt := g.vt) h.1 h.2.1 g.ents [] rest (8 + ipsz v6 + 2 * ipsz v6 * g.ents.length + 1)
    (by simp) h.2.2.1 (Or.inr (Or.inl hne)) (by omega)
  simp only [flat, List.append_nil, List.length_nil, Nat.zero_add, Nat.mul_zero, Nat.add_zero] at hl
  have hgok : Msg.Ok v6 { g with ents := keep v6 g.ents } := by
    refine ⟨h.1, h.2.1, fun e he => h.2.2.1 e (List.mem_filter.1 he).1, ?_⟩
    have := Nat.mul_le_mul_left (2 * ipsz v6) (List.length_filter_le (fun e => !isGw v6 e.1 e.2) g.ents)
    have h4 := h.2.2.2
    simp only [keep]
    omega
  refine ⟨j, ?_, ?_⟩
  · rw [hj, hk]
    congr 1
    have := filter_split g.ents (gateway v6)
    omega
  · rw [← hk]
    have hfl := filter_loop (c := c) g rest h hf
    rw [hl, show hd g.vt (8 + ipsz v6 + 2 * ipsz v6 * (keep v6 g.ents).length) g.orig g.tl ++ flat (keep v6 g.ents) =
      Msg.encode v6 { g with ents := keep v6 g.ents } from (encode_eq v6 { g with ents := keep v6 g.ents }).symm] at hfl
    have hco := core_spec sym { g with ents := keep v6 g.ents } (j ++ rest) hgok
    rw [← List.append_assoc] at hco
    rw [input_eq hfl hco]
    simp

/-- **Messages with gateways only.**  The last gateway stays in the message; it is processed by the daemon like that of
any other originator.  Only the forwarding is suppressed. -/
theorem C138_gateways_only (v6 sym : Bool) (c : Conf) (g : Msg) (es : List (List Nat × List Nat)) (last : List Nat × List Nat)
    (rest : List Nat) (h : g.Ok v6) (hf : shouldFilter c g.orig = true) (he : g.ents = es ++ [last])
    (hg : ∀ e ∈ g.ents, gateway v6 e = true) :
    ∃ junk : List Nat, junk.length = 2 * ipsz v6 * es.length ∧
      input v6 sym c (g.encode v6 ++ rest) =
        some { m := { g with ents := [last] }.encode v6 ++ junk ++ rest, learned := if sym then [last] else [], forward := false } := by
  have hmul := Nat.le_mul_of_pos_left g.ents.length (show 0 < 2 * ipsz v6 by have := ipsz_pos v6; omega)
  have hpos := ipsz_pos v6
  have hlen : g.ents.length = es.length + 1 := by rw [he]; simp
  have hlm : last ∈ g.ents := by rw [he]; simp
  have hem : ∀ e ∈ es, e ∈ g.ents := fun e h' => by rw [he]; simp [h']
  have hgw : ∀ e ∈ g.ents, isGw v6 e.1 e.2 = true := fun e h' => by
    rw [C138_gateway v6 e (h.2.2.1 e h').1 (h.2.2.1 e h').2]; exact hg e h'
  obtain ⟨j, hj, hl⟩ := loop_all (vt := g.vt) h.1 h.2.1 last (h.2.2.1 last hlm) (hgw last hlm) es rest
    (8 + ipsz v6 + 2 * ipsz v6 * g.ents.length + 1) (fun e h' => h.2.2.1 e (hem e h')) (fun e h' => hgw e (hem e h')) (by omega)
  have hgok : Msg.Ok v6 { g with ents := [last] } := by
    refine ⟨h.1, h.2.1, fun e he => ?_, ?_⟩
    · rw [List.mem_singleton.1 he]; exact h.2.2.1 last hlm
    · have := h.2.2.2
      rw [hlen, Nat.mul_add] at this
      simp; omega
  refine ⟨j, hj, ?_⟩
  have hfl := filter_loop (c := c) g rest h hf
  rw [← he, ← hlen] at hl
  rw [hl, show hd g.vt (8 + ipsz v6 + 2 * ipsz v6) g.orig g.tl ++ flat [last] =
    Msg.encode v6 { g with ents := [last] } by rw [encode_eq]; simp] at hfl
  have hco := core_spec sym { g with ents := [last] } (j ++ rest) hgok
  rw [← List.append_assoc] at hco
  rw [input_eq hfl hco]
  simp

/-- Messages of other originators, and messages without entries, pass as they are. -/
theorem C138_others (v6 sym : Bool) (c : Conf) (g : Msg) (rest : List Nat) (h : g.Ok v6)
    (hf : shouldFilter c g.orig = false ∨ g.ents = []) :
    input v6 sym c (g.encode v6 ++ rest) =
      some { m := g.encode v6 ++ rest, learned := if sym then g.ents else [], forward := sym } := by
  have hco := core_spec sym g rest h
  by_cases hs : shouldFilter c g.orig = false
  · rw [input_eq (filter_pass g rest h hs) hco]; simp
  · have hs' : shouldFilter c g.orig = true := by cases h' : shouldFilter c g.orig <;> simp_all
    have he : g.ents = [] := hf.resolve_left hs
    have hfl := filter_loop (c := c) g rest h hs'
    rw [loop_end (by rw [he]; simp), ← encode_eq] at hfl
    rw [input_eq hfl hco]; simp

/-- The property in full: of a filtered originator no gateway is processed. -/
def Full : Prop :=
  ∀ (v6 sym : Bool) (c : Conf) (g : Msg) (rest : List Nat) (o : Outcome), g.Ok v6 → shouldFilter c g.orig = true →
    input v6 sym c (g.encode v6 ++ rest) = some o → ∀ e ∈ o.learned, gateway v6 e = false

/-- It does not hold: the message of a node that announces 0.0.0.0/0 and nothing else. -/
theorem C138_full_fails : ¬ Full := by
  intro hfull
  have hok : Msg.Ok false ⟨0, [10, 0, 0, 1], [2, 0, 0, 1], [([0, 0, 0, 0], [0, 0, 0, 0])]⟩ :=
    ⟨rfl, rfl, by intro e he; rw [List.mem_singleton.1 he]; exact ⟨rfl, rfl⟩, by decide⟩
  obtain ⟨j, _, hi⟩ := C138_gateways_only false true ⟨0, some [[10, 0, 0, 1]]⟩
    ⟨0, [10, 0, 0, 1], [2, 0, 0, 1], [([0, 0, 0, 0], [0, 0, 0, 0])]⟩ [] ([0, 0, 0, 0], [0, 0, 0, 0]) [] hok (by decide) rfl
    (by decide)
  have := hfull false true ⟨0, some [[10, 0, 0, 1]]⟩ ⟨0, [10, 0, 0, 1], [2, 0, 0, 1], [([0, 0, 0, 0], [0, 0, 0, 0])]⟩ [] _ hok
    (by decide) hi ([0, 0, 0, 0], [0, 0, 0, 0]) (by simp)
  exact absurd this (by decide)

/-- a message with a network between two gateways, followed by four other bytes: the network stays -/
example : input false true ⟨0, some [[10, 0, 0, 1]]⟩
    (Msg.encode false ⟨7, [10, 0, 0, 1], [2, 0, 0, 1],
      [([0, 0, 0, 0], [0, 0, 0, 0]), ([10, 1, 0, 0], [255, 255, 0, 0]), ([0, 0, 0, 0], [0, 1, 2, 3])]⟩ ++ [1, 2, 3, 4]) =
    some { m := [4, 7, 0, 20, 10, 0, 0, 1, 2, 0, 0, 1, 10, 1, 0, 0, 255, 255, 0, 0, 0, 0, 0, 0, 0, 1, 2, 3, 0, 0, 0, 0, 0, 1, 2, 3, 1, 2, 3, 4],
           learned := [([10, 1, 0, 0], [255, 255, 0, 0])], forward := true } := by decide +kernel

/-! ### Any message -/

private theorem chunks {v6 : Bool} : ∀ (n : Nat) (b : List Nat), b.length = 2 * ipsz v6 * n →
    ∃ es : List (List Nat × List Nat), (∀ e ∈ es, EntOk v6 e) ∧ flat es = b ∧ es.length = n
  | 0, b, h => ⟨[], by simp, by simp only [Nat.mul_zero, List.length_eq_zero_iff] at h; rw [h]; rfl, rfl⟩
  | n + 1, b, h => by
    have hmul : 2 * ipsz v6 * (n + 1) = 2 * ipsz v6 * n + 2 * ipsz v6 := by rw [Nat.mul_add]; omega
    obtain ⟨es, h1, h2, h3⟩ := chunks (v6 := v6) n (b.drop (2 * ipsz v6)) (by rw [List.length_drop]; omega)
    refine ⟨(b.take (ipsz v6), (b.drop (ipsz v6)).take (ipsz v6)) :: es, ?_, ?_, by simp [h3]⟩
    · intro e he
      rcases List.mem_cons.1 he with rfl | he
      · exact ⟨by simp; omega, by simp; omega⟩
      · exact h1 e he
    · simp only [flat, h2]
      rw [show 2 * ipsz v6 = ipsz v6 + ipsz v6 by omega, ← List.drop_drop, List.append_assoc, List.take_append_drop, List.take_append_drop]

/-- Of any message whose size field is at least that of the header and at most the number of bytes that are there
(the parser has checked both): nothing outside the message is read or written, the other messages of the
packet stay as they are, and a message whose entries do not fill its size is neither processed nor forwarded. -/
theorem C138_any (v6 sym : Bool) (c : Conf) (vt s1 s0 : Nat) (orig tl body rest : List Nat) (ho : orig.length = ipsz v6)
    (ht : tl.length = 4) (hs : s1 < 256 ∧ s0 < 256) (hb : 8 + ipsz v6 + body.length = s1 * 256 + s0) :
    ∃ o : Outcome, input v6 sym c ([4, vt, s1, s0] ++ orig ++ tl ++ body ++ rest) = some o ∧
      (∃ msg : List Nat, msg.length = 8 + ipsz v6 + body.length ∧ o.m = msg ++ rest) ∧
      (body.length % (2 * ipsz v6) ≠ 0 → o = { m := [4, vt, s1, s0] ++ orig ++ tl ++ body ++ rest, learned := [], forward := false }) := by
  have hpos := ipsz_pos v6
  obtain ⟨N, hN⟩ : ∃ N, N = s1 * 256 + s0 := ⟨_, rfl⟩
  have hlt : N < 65536 := by omega
  have hhd : [4, vt, s1, s0] ++ orig ++ tl = hd vt N orig tl := by
    simp only [hd, List.cons_append, List.nil_append]
    rw [show N / 256 % 256 = s1 by omega, show N % 256 = s0 by omega]
  have hl : (hd vt N orig tl).length = 8 + ipsz v6 := by rw [hd_length, ho, ht]; omega
  rw [hhd]
  by_cases hm : body.length % (2 * ipsz v6) = 0
  · obtain ⟨es, he, hfl, hn⟩ := chunks (v6 := v6) (body.length / (2 * ipsz v6)) body (by
      have := Nat.mul_div_cancel' (Nat.dvd_of_mod_eq_zero hm); omega)
    have hbl : body.length = 2 * ipsz v6 * es.length := by
      rw [hn]; exact (Nat.mul_div_cancel' (Nat.dvd_of_mod_eq_zero hm)).symm
    have hok : Msg.Ok v6 ⟨vt, orig, tl, es⟩ := ⟨ho, ht, he, by simp only; omega⟩
    have henc : hd vt N orig tl ++ body = Msg.encode v6 ⟨vt, orig, tl, es⟩ := by
      rw [encode_eq, ← hfl]
      simp only
      rw [show 8 + ipsz v6 + 2 * ipsz v6 * es.length = N by omega]
    have henl : (Msg.encode v6 ⟨vt, orig, tl, es⟩).length = 8 + ipsz v6 + body.length := by
      rw [← henc, List.length_append, hl]
    rw [henc]
    have hlen : ∀ es' : List (List Nat × List Nat), (∀ e ∈ es', EntOk v6 e) →
        (Msg.encode v6 ⟨vt, orig, tl, es'⟩).length = 8 + ipsz v6 + 2 * ipsz v6 * es'.length := by
      intro es' h'
      rw [encode_eq, List.length_append, hd_length, flat_length h']
      simp only [ho, ht]; omega
    by_cases hp : shouldFilter c orig = false ∨ es = []
    · exact ⟨_, C138_others v6 sym c ⟨vt, orig, tl, es⟩ rest hok hp, ⟨_, henl, rfl⟩, fun h' => absurd hm h'⟩
    · have hsf : shouldFilter c orig = true := by
        cases h' : shouldFilter c orig
        · exact absurd (Or.inl h') hp
        · rfl
      have hne : es ≠ [] := fun h' => hp (Or.inr h')
      by_cases hex : ∃ e ∈ es, gateway v6 e = false
      · obtain ⟨j, hj, hi⟩ := C138_filtered_partial v6 sym c ⟨vt, orig, tl, es⟩ rest hok hsf hex
        refine ⟨_, hi, ⟨_, ?_, rfl⟩, fun h' => absurd hm h'⟩
        have h2 := hlen (es.filter (fun e => !gateway v6 e)) (fun e h' => he e (List.mem_filter.1 h').1)
        simp only at hj ⊢
        rw [List.length_append, h2, hj, hbl]
        have h3 : (es.filter (gateway v6)).length + (es.filter (fun e => !gateway v6 e)).length = es.length :=
          filter_split es (gateway v6)
        rw [← h3, Nat.mul_add]; omega
      · have hall : ∀ e ∈ es, gateway v6 e = true := by
          intro e h'
          cases hq : gateway v6 e
          · exact absurd ⟨e, h', hq⟩ hex
          · rfl
        have hsp : es = es.dropLast ++ [es.getLast hne] := (List.dropLast_concat_getLast hne).symm
        obtain ⟨j, hj, hi⟩ := C138_gateways_only v6 sym c ⟨vt, orig, tl, es⟩ es.dropLast (es.getLast hne) rest hok hsf hsp hall
        refine ⟨_, hi, ⟨_, ?_, rfl⟩, fun h' => absurd hm h'⟩
        have h2 := hlen [es.getLast hne] (fun e h' => by rw [List.mem_singleton.1 h']; exact he _ (List.getLast_mem hne))
        simp only at hj ⊢
        rw [List.length_append, h2, hj, hbl, List.length_dropLast, List.length_singleton]
        have : 0 < es.length := List.length_pos_iff.2 hne
        obtain ⟨k, hk⟩ : ∃ k, es.length = k + 1 := ⟨es.length - 1, by omega⟩
        rw [hk, Nat.mul_add]; simp; omega
  · have hmi : ((N : Int) - 8 - (ipsz v6 : Int)) % (2 * (ipsz v6 : Int)) ≠ 0 := by
      rw [show (N : Int) - 8 - (ipsz v6 : Int) = (body.length : Int) by omega]
      intro h'
      have h2 : ((body.length % (2 * ipsz v6) : Nat) : Int) = 0 := by
        rw [Int.natCast_emod, Int.natCast_mul]; exact h'
      exact hm (by omega)
    have hco : core v6 sym (hd vt N orig tl ++ body ++ rest) = some (false, []) := by
      unfold core
      rw [List.append_assoc, ty_hd, get16_hd hlt]
      simp only []
      rw [if_pos trivial, if_neg (by rw [List.length_append, hl]; omega), if_pos hmi]
    have hfi : ∃ b, filter v6 c (hd vt N orig tl ++ body ++ rest) = some (b, hd vt N orig tl ++ body ++ rest) := by
      unfold filter
      rw [List.append_assoc, ty_hd, get16_hd hlt, orig_hd ho]
      simp only []
      rw [if_pos trivial]
      by_cases hs : shouldFilter c orig = true
      · exact ⟨false, by rw [if_pos hs, if_neg (by rw [List.length_append, hl]; omega), if_pos hmi]⟩
      · exact ⟨true, by rw [if_neg hs]⟩
    obtain ⟨b, hfi⟩ := hfi
    refine ⟨_, input_eq hfi hco, ⟨hd vt N orig tl ++ body, by rw [List.length_append, hl], rfl⟩, fun _ => ?_⟩
    simp

example : input false true ⟨1, none⟩ ([4, 0, 0, 16] ++ [10, 0, 0, 1] ++ [2, 0, 0, 1] ++ [0, 0, 0, 0] ++ [9]) =
    some { m := [4, 0, 0, 16, 10, 0, 0, 1, 2, 0, 0, 1, 0, 0, 0, 0, 9], learned := [], forward := false } := by decide +kernel

end Verif.Fgw
