import Verif.CksumModel

/-!
# C71 — checksums of rewritten broadcast packets
-/

namespace Verif.Cksum

/-! ## Specification: the Internet checksum (RFC 1071) -/

/-- addition with end-around carry -/
def add1c (a b : Nat) : Nat := if a + b < 65536 then a + b else a + b - 65535

/-- the 16-bit words of a byte string, padded with a zero byte -/
def words : List Nat → List Nat
  | a :: b :: l => (256 * a + b) :: words l
  | [a] => [256 * a]
  | [] => []

/-- one's complement sum -/
def ocSum (ws : List Nat) : Nat := ws.foldl add1c 0

/-- a receiver accepts the IP header -/
def HeaderValid (p : List Nat) : Prop := ocSum (words (p.take (ihl p))) = 65535

/-- the words summed up by a UDP receiver: pseudo header (addresses, protocol, UDP length)
and the UDP datagram of `n` bytes -/
def udpWords (p : List Nat) (n : Nat) : List Nat :=
  [be16 p 12, be16 p 14, be16 p 16, be16 p 18, 17, n] ++ words ((p.drop (ihl p)).take n)

/-- a receiver accepts the UDP datagram: it carries no checksum, or a correct one -/
def UdpValid (p : List Nat) (n : Nat) : Prop :=
  be16 p (ihl p + 6) = 0 ∨ ocSum (udpWords p n) = 65535

/-- every element is a byte -/
def Bytes (p : List Nat) : Prop := ∀ x ∈ p, x < 256

/-! ## Helpers -/

private def wsum : List Nat → Nat
  | [] => 0
  | w :: ws => w + wsum ws

private theorem ocSum_foldl (ws : List Nat) (a : Nat) (ha : a ≤ 65535) (hw : ∀ w ∈ ws, w ≤ 65535) :
    ws.foldl add1c a ≤ 65535 ∧ (ws.foldl add1c a) % 65535 = (a + wsum ws) % 65535 ∧
      (ws.foldl add1c a = 0 ↔ a + wsum ws = 0) := by
  induction ws generalizing a with
  | nil => exact ⟨ha, rfl, Iff.rfl⟩
  | cons w ws ih =>
    have hw1 := hw w (List.mem_cons_self ..)
    have h1 : add1c a w ≤ 65535 ∧ (add1c a w) % 65535 = (a + w) % 65535 ∧ (add1c a w = 0 ↔ a + w = 0) := by
      unfold add1c
      split <;> omega
    obtain ⟨i1, i2, i3⟩ := ih (add1c a w) h1.1 (fun x hx => hw x (List.mem_cons_of_mem _ hx))
    rw [List.foldl_cons, wsum]
    refine ⟨i1, ?_, ?_⟩
    · rw [i2]; omega
    · rw [i3]; omega

private theorem ocSum_iff (ws : List Nat) (hw : ∀ w ∈ ws, w ≤ 65535) :
    ocSum ws = 65535 ↔ wsum ws % 65535 = 0 ∧ 0 < wsum ws := by
  obtain ⟨h1, h2, h3⟩ := ocSum_foldl ws 0 (by omega) hw
  unfold ocSum
  omega

private theorem words_le (p : List Nat) (h : Bytes p) : ∀ w ∈ words p, w ≤ 65535 := by
  intro w hw
  induction p using words.induct with
  | case1 a b l ih =>
    rw [words, List.mem_cons] at hw
    have h1 := h a (List.mem_cons_self ..)
    have h2 := h b (List.mem_cons_of_mem _ (List.mem_cons_self ..))
    rcases hw with rfl | hw
    · omega
    · exact ih (fun x hx => h x (List.mem_cons_of_mem _ (List.mem_cons_of_mem _ hx))) hw
  | case2 a =>
    rw [words, List.mem_singleton] at hw
    have h1 := h a (List.mem_cons_self ..)
    omega
  | case3 => rw [words] at hw; cases hw

/-- sum of the words of a byte string after storing a word at an even offset -/
private theorem wsum_put (p : List Nat) (k v : Nat) (hk : 2 * k + 1 < p.length) :
    wsum (words (put16 p (2 * k) v)) + be16 p (2 * k) = wsum (words p) + (256 * (v / 256) + v % 256) := by
  induction k generalizing p with
  | zero =>
    match p, hk with
    | a :: b :: l, _ =>
      unfold put16 be16
      simp [words, wsum]
      omega
  | succ k ih =>
    match p, hk with
    | a :: b :: l, hk =>
      have hk' : 2 * k + 1 < l.length := by simp at hk; omega
      have := ih l hk'
      have e1 : put16 (a :: b :: l) (2 * (k + 1)) v = a :: b :: put16 l (2 * k) v := by
        unfold put16
        rw [show 2 * (k + 1) = 2 * k + 1 + 1 by omega, List.set_cons_succ, List.set_cons_succ,
          List.set_cons_succ, List.set_cons_succ]
      have e2 : be16 (a :: b :: l) (2 * (k + 1)) = be16 l (2 * k) := by
        unfold be16
        rw [show 2 * (k + 1) = 2 * k + 1 + 1 by omega]
        simp
      rw [e1, e2]
      simp only [words, wsum]
      omega

private theorem put16_len (p : List Nat) (i v : Nat) : (put16 p i v).length = p.length := by
  unfold put16; simp

private theorem put16_getD (p : List Nat) (i v j : Nat) (h : j ≠ i ∧ j ≠ i + 1) :
    (put16 p i v).getD j 0 = p.getD j 0 := by
  unfold put16
  simp only [List.getD_eq_getElem?_getD]
  rw [List.getElem?_set_ne (by omega), List.getElem?_set_ne (by omega)]

private theorem put16_be16_ne (p : List Nat) (i v j : Nat) (h : j + 1 < i ∨ i + 1 < j) :
    be16 (put16 p i v) j = be16 p j := by
  unfold be16
  rw [put16_getD _ _ _ _ (by omega), put16_getD _ _ _ _ (by omega)]

private theorem put16_be16 (p : List Nat) (i v : Nat) (h : i + 1 < p.length) :
    be16 (put16 p i v) i = 256 * (v / 256) + v % 256 := by
  unfold be16 put16
  simp only [List.getD_eq_getElem?_getD]
  rw [List.getElem?_set_ne (by omega), List.getElem?_set_self (by omega), List.getElem?_set_self (by simp; omega)]
  rfl

private theorem put16_take (p : List Nat) (i v n : Nat) (_ : i + 1 < n) :
    (put16 p i v).take n = put16 (p.take n) i v := by
  unfold put16
  rw [List.take_set, List.take_set]

private theorem put16_take_ge (p : List Nat) (i v n : Nat) (h : n ≤ i) :
    (put16 p i v).take n = p.take n := by
  unfold put16
  rw [List.take_set, List.take_set, List.set_eq_of_length_le (by simp; omega),
    List.set_eq_of_length_le (by simp; omega)]

private theorem put16_bytes (p : List Nat) (i v : Nat) (hv : v < 65536) (h : Bytes p) : Bytes (put16 p i v) := by
  intro x hx
  unfold put16 at hx
  rcases List.mem_or_eq_of_mem_set hx with hx | rfl
  · rcases List.mem_or_eq_of_mem_set hx with hx | rfl
    · exact h x hx
    · omega
  · omega

private theorem be16_le (p : List Nat) (i : Nat) (h : Bytes p) : be16 p i ≤ 65535 := by
  have g : ∀ i, p.getD i 0 < 256 := by
    intro i
    rw [List.getD_eq_getElem?_getD]
    cases hx : p[i]? with
    | none => simp
    | some x => exact h x (List.mem_of_getElem? hx)
  have h1 := g i
  have h2 := g (i + 1)
  unfold be16
  omega

private theorem step_eq (x o n : Nat) (hx : x < 4294967296) (ho : o ≤ 65535) (hn : n ≤ 65535) :
    not32 (add32 (sub32 (not32 x) o) n) = (x + o + 4294967296 - n) % 4294967296 := by
  unfold not32 add32 sub32
  omega

/-- the exact effect of the update on the residue of the checksum -/
private theorem update_mod (c o1 o2 n1 n2 : Nat) (hc : c ≤ 65535) (h1 : o1 ≤ 65535) (h2 : o2 ≤ 65535)
    (h3 : n1 ≤ 65535) (h4 : n2 ≤ 65535) :
    update c o1 o2 n1 n2 < 65536 ∧
    ((update c o1 o2 n1 n2 + n1 + n2) % 65535 = (c + o1 + o2) % 65535 ↔
      c + o1 + o2 ≠ n1 + n2 + 131071 ∧ c + o1 + o2 + 65536 ≠ n1 + n2) := by
  have e : update c o1 o2 n1 n2 = add32 ((c + o1 + o2 + 4294967296 - (n1 + n2)) % 4294967296)
      ((c + o1 + o2 + 4294967296 - (n1 + n2)) % 4294967296 / 65536) % 65536 := by
    unfold update
    simp only []
    rw [step_eq c o1 n1 (by omega) h1 h3, step_eq _ o2 n2 (by omega) h2 h4]
    rw [show ((c + o1 + 4294967296 - n1) % 4294967296 + o2 + 4294967296 - n2) % 4294967296 =
      (c + o1 + o2 + 4294967296 - (n1 + n2)) % 4294967296 by omega]
  rw [e]
  unfold add32
  refine ⟨by omega, ?_⟩
  by_cases hs : n1 + n2 ≤ c + o1 + o2
  · obtain ⟨d, hd⟩ : ∃ d, c + o1 + o2 = n1 + n2 + d := ⟨c + o1 + o2 - (n1 + n2), by omega⟩
    rw [show c + o1 + o2 + 4294967296 - (n1 + n2) = d + 4294967296 by omega, Nat.add_mod_right,
      Nat.mod_eq_of_lt (a := d) (by omega), Nat.mod_eq_of_lt (a := d + _) (by omega)]
    rw [hd]
    have hd2 : d ≤ 196605 := by omega
    rw [show ∀ x, x + n1 + n2 = x + (n1 + n2) by intro x; omega]
    generalize n1 + n2 = s at *
    clear e
    rcases Nat.lt_or_ge d 65536 with h | h
    · rw [show d / 65536 = 0 by omega, Nat.mod_eq_of_lt (a := d + 0) (by omega)]
      omega
    · rcases Nat.lt_or_ge d 131072 with h' | h'
      · rw [show d / 65536 = 1 by omega]
        by_cases h2 : d = 131071
        · subst h2; omega
        · rw [show (d + 1) % 65536 = d + 1 - 65536 by omega]; omega
      · rw [show d / 65536 = 2 by omega, show (d + 2) % 65536 = d + 2 - 131072 by omega]; omega
  · obtain ⟨d, hd⟩ : ∃ d, n1 + n2 = c + o1 + o2 + d := ⟨n1 + n2 - (c + o1 + o2), by omega⟩
    rw [show c + o1 + o2 + 4294967296 - (n1 + n2) = 4294967296 - d by omega,
      Nat.mod_eq_of_lt (a := 4294967296 - d) (by omega)]
    have hd2 : d ≤ 131070 ∧ 0 < d := by omega
    rw [show ∀ x, x + n1 + n2 = x + (n1 + n2) by intro x; omega, hd]
    generalize c + o1 + o2 = s at *
    clear e
    rcases Nat.lt_or_ge d 65537 with h | h
    · rw [show (4294967296 - d) / 65536 = 65535 by omega]
      omega
    · rw [show (4294967296 - d) / 65536 = 65534 by omega]
      omega

private theorem rewriteIp_facts (p : List Nat) (n1 n2 : Nat) (hp : Bytes p) (hl : 20 ≤ p.length)
    (hn1 : n1 ≤ 65535) (hn2 : n2 ≤ 65535) :
    (rewriteIp p n1 n2).length = p.length ∧ Bytes (rewriteIp p n1 n2) ∧
    (∀ j, j < 10 ∨ (12 ≤ j ∧ j < 16) ∨ 20 ≤ j → (rewriteIp p n1 n2).getD j 0 = p.getD j 0) ∧
    be16 (rewriteIp p n1 n2) 16 = n1 ∧ be16 (rewriteIp p n1 n2) 18 = n2 ∧
    be16 (rewriteIp p n1 n2) 10 = update (be16 p 10) (be16 p 16) (be16 p 18) n1 n2 := by
  have hu := (update_mod (be16 p 10) (be16 p 16) (be16 p 18) n1 n2 (be16_le p _ hp) (be16_le p _ hp) (be16_le p _ hp) hn1 hn2).1
  obtain ⟨u, hu'⟩ : ∃ u, update (be16 p 10) (be16 p 16) (be16 p 18) n1 n2 = u := ⟨_, rfl⟩
  unfold rewriteIp
  rw [hu'] at hu ⊢
  refine ⟨by rw [put16_len, put16_len, put16_len], put16_bytes _ _ _ hu (put16_bytes _ _ _ (by omega) (put16_bytes _ _ _ (by omega) hp)), ?_, ?_, ?_, ?_⟩
  · intro j hj
    rw [put16_getD _ _ _ _ (by omega), put16_getD _ _ _ _ (by omega), put16_getD _ _ _ _ (by omega)]
  · rw [put16_be16_ne _ _ _ _ (by omega), put16_be16_ne _ _ _ _ (by omega), put16_be16 _ _ _ (by omega)]; omega
  · rw [put16_be16_ne _ _ _ _ (by omega), put16_be16 _ _ _ (by rw [put16_len]; omega)]; omega
  · rw [put16_be16 _ _ _ (by rw [put16_len, put16_len]; omega)]; omega

/-! ## C71 -/

/-- Multicast packets are left alone. -/
theorem C71_multicast_untouched (p : List Nat) (n1 n2 : Nat) (h : 224 ≤ p.getD 16 0 ∧ p.getD 16 0 ≤ 239) :
    rewrite p n1 n2 = p := by
  unfold rewrite isMulticast
  rw [if_pos (by rw [beq_iff_eq]; omega)]

example : 224 ≤ ([0x45, 0, 0, 20, 0, 0, 0, 0, 1, 17, 0, 0, 10, 0, 0, 1, 224, 0, 0, 5] : List Nat).getD 16 0 := by decide

/-- Otherwise the destination becomes the given broadcast address, and nothing else
changes apart from the header checksum and, for UDP, the UDP checksum. -/
theorem C71_only_destination (p : List Nat) (n1 n2 : Nat) (hp : Bytes p) (hl : 20 ≤ p.length)
    (hn1 : n1 ≤ 65535) (hn2 : n2 ≤ 65535) (hm : ¬ (224 ≤ p.getD 16 0 ∧ p.getD 16 0 ≤ 239))
    (hi : 20 ≤ ihl p) :
    be16 (rewrite p n1 n2) 16 = n1 ∧ be16 (rewrite p n1 n2) 18 = n2 ∧
    (rewrite p n1 n2).length = p.length ∧
    ∀ j, (j < 10 ∨ (12 ≤ j ∧ j < 16) ∨ 20 ≤ j) →
      (p.getD 9 0 = 17 → j ≠ ihl p + 6 ∧ j ≠ ihl p + 7) → (rewrite p n1 n2).getD j 0 = p.getD j 0 := by
  obtain ⟨f1, f2, f3, f4, f5, f6⟩ := rewriteIp_facts p n1 n2 hp hl hn1 hn2
  unfold rewrite
  rw [if_neg (by unfold isMulticast; rw [beq_iff_eq]; omega)]
  by_cases hu : p.getD 9 0 = 17
  · rw [if_pos hu]
    refine ⟨?_, ?_, ?_, ?_⟩
    · rw [put16_be16_ne _ _ _ _ (by omega), f4]
    · rw [put16_be16_ne _ _ _ _ (by omega), f5]
    · rw [put16_len, f1]
    · intro j hj hk
      have := hk hu
      rw [put16_getD _ _ _ _ (by omega), f3 j hj]
  · rw [if_neg hu]
    exact ⟨f4, f5, f1, fun j hj _ => f3 j hj⟩

/-- The header checksum of a packet with a valid header is right after the rewriting
exactly when the difference of the address words, added to the old checksum, is neither
`0x1ffff` nor `-0x10000`: the carry is added only once.  (The statement wanted is that it
is always right; see `C71_header_checksum_broken`.) -/
theorem C71_header_checksum_partial (p : List Nat) (n1 n2 : Nat) (hp : Bytes p) (hl : ihl p ≤ p.length)
    (hn1 : n1 ≤ 65535) (hn2 : n2 ≤ 65535) (hm : ¬ (224 ≤ p.getD 16 0 ∧ p.getD 16 0 ≤ 239))
    (hi : 20 ≤ ihl p) (hv : HeaderValid p) :
    HeaderValid (rewrite p n1 n2) ↔
      (be16 p 10 + be16 p 16 + be16 p 18 ≠ n1 + n2 + 131071 ∧
       be16 p 10 + be16 p 16 + be16 p 18 + 65536 ≠ n1 + n2) := by
  have hlen : 20 ≤ p.length := by omega
  obtain ⟨f1, f2, f3, f4, f5, f6⟩ := rewriteIp_facts p n1 n2 hp hlen hn1 hn2
  have hih : ihl (rewriteIp p n1 n2) = ihl p := by unfold ihl; rw [f3 0 (by omega)]
  have htake : (rewrite p n1 n2).take (ihl p) = (rewriteIp p n1 n2).take (ihl p) ∧ ihl (rewrite p n1 n2) = ihl p := by
    unfold rewrite
    rw [if_neg (by unfold isMulticast; rw [beq_iff_eq]; omega)]
    by_cases hu : p.getD 9 0 = 17
    · rw [if_pos hu]
      refine ⟨put16_take_ge _ _ _ _ (by omega), ?_⟩
      rw [← hih]
      show (put16 _ _ _).getD 0 0 % 16 * 4 = _
      rw [put16_getD _ _ _ _ (by omega)]
      rfl
    · rw [if_neg hu]; exact ⟨rfl, hih⟩
  have hbt : ∀ q : List Nat, Bytes q → ∀ n, Bytes (q.take n) := fun q h n x hx => h x (List.mem_of_mem_take hx)
  unfold HeaderValid at hv ⊢
  rw [htake.2, htake.1]
  rw [ocSum_iff _ (words_le _ (hbt _ hp _))] at hv
  rw [ocSum_iff _ (words_le _ (hbt _ f2 _))]
  -- the sum after the three stores
  have hb : ∀ j, j + 1 < ihl p → be16 (p.take (ihl p)) j = be16 p j := by
    intro j hj
    unfold be16
    simp only [List.getD_eq_getElem?_getD]
    rw [List.getElem?_take_of_lt (by omega), List.getElem?_take_of_lt (by omega)]
  obtain ⟨um, ue⟩ := update_mod (be16 p 10) (be16 p 16) (be16 p 18) n1 n2 (be16_le p _ hp) (be16_le p _ hp) (be16_le p _ hp) hn1 hn2
  have e : (rewriteIp p n1 n2).take (ihl p) =
      put16 (put16 (put16 (p.take (ihl p)) 16 n1) 18 n2) 10 (update (be16 p 10) (be16 p 16) (be16 p 18) n1 n2) := by
    unfold rewriteIp
    rw [put16_take _ _ _ _ (by omega), put16_take _ _ _ _ (by omega), put16_take _ _ _ _ (by omega)]
  rw [e]
  obtain ⟨u, hu'⟩ : ∃ u, update (be16 p 10) (be16 p 16) (be16 p 18) n1 n2 = u := ⟨_, rfl⟩
  rw [hu'] at um ue ⊢
  have lt : (p.take (ihl p)).length = ihl p := by rw [List.length_take]; omega
  have s1 := wsum_put (p.take (ihl p)) 8 n1 (by omega)
  have s2 := wsum_put (put16 (p.take (ihl p)) 16 n1) 9 n2 (by rw [put16_len]; omega)
  have s3 := wsum_put (put16 (put16 (p.take (ihl p)) 16 n1) 18 n2) 5 u (by rw [put16_len, put16_len]; omega)
  simp only [Nat.reduceMul] at s1 s2 s3
  rw [hb 16 (by omega)] at s1
  rw [put16_be16_ne _ _ _ _ (by omega), hb 18 (by omega)] at s2
  rw [put16_be16_ne _ _ _ _ (by omega), put16_be16_ne _ _ _ _ (by omega), hb 10 (by omega)] at s3
  -- the first word carries the version and is never changed
  have hpos : 0 < wsum (words (put16 (put16 (put16 (p.take (ihl p)) 16 n1) 18 n2) 10 u)) := by
    have h0 : 5 ≤ p.getD 0 0 := by unfold ihl at hi; omega
    have hg : (put16 (put16 (put16 (p.take (ihl p)) 16 n1) 18 n2) 10 u).getD 0 0 = p.getD 0 0 := by
      rw [put16_getD _ _ _ _ (by omega), put16_getD _ _ _ _ (by omega), put16_getD _ _ _ _ (by omega)]
      simp only [List.getD_eq_getElem?_getD]
      rw [List.getElem?_take_of_lt (by omega)]
    have hlen3 : (put16 (put16 (put16 (p.take (ihl p)) 16 n1) 18 n2) 10 u).length = ihl p := by
      rw [put16_len, put16_len, put16_len, lt]
    obtain ⟨r, hr⟩ : ∃ r, put16 (put16 (put16 (p.take (ihl p)) 16 n1) 18 n2) 10 u = r := ⟨_, rfl⟩
    rw [hr] at hg hlen3 ⊢
    match r, hlen3, hg with
    | a :: b :: l, _, hg =>
      have hg' : a = p.getD 0 0 := hg
      rw [words, wsum]; omega
    | [a], h, _ => simp at h; omega
    | [], h, _ => simp at h; omega
  omega

private def pkt (proto c0 c1 u0 u1 : Nat) : List Nat :=
  [0x45, 0, 0, 28, 0, 0, 0, 0, 1, proto, c0, c1, 192, 168, 1, 1, 255, 255, 255, 255,
   0, 5, 0, 6, 0, 8, u0, u1]

/-- a UDP packet to 255.255.255.255 with valid checksums, rewritten to 192.168.1.255 -/
example : HeaderValid (pkt 17 0xf8 0x28 0x3e 0x2a) ∧ HeaderValid (rewrite (pkt 17 0xf8 0x28 0x3e 0x2a) 0xc0a8 0x01ff) ∧
    UdpValid (pkt 17 0xf8 0x28 0x3e 0x2a) 8 ∧ UdpValid (rewrite (pkt 17 0xf8 0x28 0x3e 0x2a) 0xc0a8 0x01ff) 8 := by
  unfold HeaderValid UdpValid
  decide

/-- So the header checksum can be wrong: a valid packet to 255.255.255.255 with header
checksum `0xc2a8`, sent on the network 192.168.1.0/24. -/
theorem C71_header_checksum_broken :
    ∃ p n1 n2, Bytes p ∧ ihl p ≤ p.length ∧ n1 ≤ 65535 ∧ n2 ≤ 65535 ∧ ¬ (224 ≤ p.getD 16 0 ∧ p.getD 16 0 ≤ 239) ∧
      20 ≤ ihl p ∧ HeaderValid p ∧ ¬ HeaderValid (rewrite p n1 n2) :=
  ⟨[0x45, 0, 0, 28, 0x35, 0x7f, 0, 0, 1, 18, 0xc2, 0xa8, 192, 168, 1, 1, 255, 255, 255, 255, 0, 5, 0, 6, 0, 8, 0, 0],
   0xc0a8, 0x01ff, by unfold Bytes; decide, by decide, by decide, by decide, by decide, by decide,
   by unfold HeaderValid; decide, by unfold HeaderValid; decide⟩

/-- The UDP checksum of a datagram that carries one: same exact condition, except that
a result of zero is read as "no checksum".  (The statement wanted is that a datagram that
was acceptable stays acceptable; see `C71_udp_checksum_invented`.) -/
theorem C71_udp_checksum_partial (p : List Nat) (n n1 n2 : Nat) (hp : Bytes p) (hl : ihl p + n ≤ p.length)
    (hn : 8 ≤ n) (hn' : n ≤ 65535)
    (hn1 : n1 ≤ 65535) (hn2 : n2 ≤ 65535) (hm : ¬ (224 ≤ p.getD 16 0 ∧ p.getD 16 0 ≤ 239))
    (hi : 20 ≤ ihl p) (hproto : p.getD 9 0 = 17) (hc : be16 p (ihl p + 6) ≠ 0) (hv : UdpValid p n) :
    UdpValid (rewrite p n1 n2) n ↔
      be16 (rewrite p n1 n2) (ihl p + 6) = 0 ∨
      (be16 p (ihl p + 6) + be16 p 16 + be16 p 18 ≠ n1 + n2 + 131071 ∧
       be16 p (ihl p + 6) + be16 p 16 + be16 p 18 + 65536 ≠ n1 + n2) := by
  have hlen : 20 ≤ p.length := by omega
  obtain ⟨f1, f2, f3, f4, f5, f6⟩ := rewriteIp_facts p n1 n2 hp hlen hn1 hn2
  have hih : ihl (rewriteIp p n1 n2) = ihl p := by unfold ihl; rw [f3 0 (by omega)]
  have hck : be16 (rewriteIp p n1 n2) (ihl p + 6) = be16 p (ihl p + 6) := by
    unfold be16; rw [f3 _ (by omega), f3 _ (by omega)]
  obtain ⟨um, ue⟩ := update_mod (be16 p (ihl p + 6)) (be16 p 16) (be16 p 18) n1 n2 (be16_le p _ hp) (be16_le p _ hp) (be16_le p _ hp) hn1 hn2
  have hr : rewrite p n1 n2 = put16 (rewriteIp p n1 n2) (ihl p + 6) (update (be16 p (ihl p + 6)) (be16 p 16) (be16 p 18) n1 n2) := by
    unfold rewrite
    rw [if_neg (by unfold isMulticast; rw [beq_iff_eq]; omega), if_pos hproto, hck]
  obtain ⟨u, hu'⟩ : ∃ u, update (be16 p (ihl p + 6)) (be16 p 16) (be16 p 18) n1 n2 = u := ⟨_, rfl⟩
  rw [hu'] at um ue hr
  have hih2 : ihl (rewrite p n1 n2) = ihl p := by
    rw [hr, ← hih]
    show (put16 _ _ _).getD 0 0 % 16 * 4 = _
    rw [put16_getD _ _ _ _ (by omega)]
    rfl
  have hcr : be16 (rewrite p n1 n2) (ihl p + 6) = u := by
    rw [hr, put16_be16 _ _ _ (by omega)]; omega
  -- the datagram before and after
  have hd : (rewriteIp p n1 n2).drop (ihl p) = p.drop (ihl p) := by
    apply List.ext_getElem?
    intro j
    rw [List.getElem?_drop, List.getElem?_drop]
    have := f3 (ihl p + j) (by omega)
    simp only [List.getD_eq_getElem?_getD] at this
    by_cases hj : ihl p + j < p.length
    · rw [List.getElem?_eq_getElem (by omega), List.getElem?_eq_getElem hj] at this ⊢
      simpa using this
    · rw [List.getElem?_eq_none (by omega), List.getElem?_eq_none (by omega)]
  have hd2 : ((rewrite p n1 n2).drop (ihl p)).take n = put16 ((p.drop (ihl p)).take n) 6 u := by
    rw [hr]
    have : (put16 (rewriteIp p n1 n2) (ihl p + 6) u).drop (ihl p) = put16 ((rewriteIp p n1 n2).drop (ihl p)) 6 u := by
      unfold put16
      rw [List.drop_set, List.drop_set]
      rw [if_neg (by omega), if_neg (by omega)]
      rw [show ihl p + 6 - ihl p = 6 by omega, show ihl p + 6 + 1 - ihl p = 6 + 1 by omega]
    rw [this, hd, put16_take _ _ _ _ (by omega)]
  have hbt : Bytes ((p.drop (ihl p)).take n) := fun x hx => hp x (List.mem_of_mem_drop (List.mem_of_mem_take hx))
  have s := wsum_put ((p.drop (ihl p)).take n) 3 u (by rw [List.length_take, List.length_drop]; omega)
  have hb6 : be16 ((p.drop (ihl p)).take n) 6 = be16 p (ihl p + 6) := by
    unfold be16
    simp only [List.getD_eq_getElem?_getD]
    rw [List.getElem?_take_of_lt (by omega), List.getElem?_take_of_lt (by omega), List.getElem?_drop, List.getElem?_drop]
  simp only [Nat.reduceMul] at s
  rw [hb6] at s
  have happ : ∀ a b : List Nat, wsum (a ++ b) = wsum a + wsum b := by
    intro a b
    induction a with
    | nil => simp [wsum]
    | cons x a ih => simp only [List.cons_append, wsum, ih]; omega
  have b12 : be16 (rewrite p n1 n2) 12 = be16 p 12 := by
    rw [hr, put16_be16_ne _ _ _ _ (by omega)]; unfold be16; rw [f3 _ (by omega), f3 _ (by omega)]
  have b14 : be16 (rewrite p n1 n2) 14 = be16 p 14 := by
    rw [hr, put16_be16_ne _ _ _ _ (by omega)]; unfold be16; rw [f3 _ (by omega), f3 _ (by omega)]
  have b16 : be16 (rewrite p n1 n2) 16 = n1 := by rw [hr, put16_be16_ne _ _ _ _ (by omega), f4]
  have b18 : be16 (rewrite p n1 n2) 18 = n2 := by rw [hr, put16_be16_ne _ _ _ _ (by omega), f5]
  unfold UdpValid at hv ⊢
  rw [hih2]
  have hv2 := hv.resolve_left hc
  unfold udpWords at hv2 ⊢
  rw [hih2, hd2, b12, b14, b16, b18]
  have q12 := be16_le p 12 hp
  have q14 := be16_le p 14 hp
  have q16 := be16_le p 16 hp
  have q18 := be16_le p 18 hp
  rw [ocSum_iff] at hv2
  · rw [ocSum_iff]
    · rw [happ] at hv2 ⊢
      simp only [wsum] at hv2 ⊢
      rw [hcr]
      omega
    · intro w hw
      rw [List.mem_append] at hw
      rcases hw with hw | hw
      · simp only [List.mem_cons, List.not_mem_nil, or_false] at hw
        omega
      · exact words_le _ (put16_bytes _ _ _ um hbt) w hw
  · intro w hw
    rw [List.mem_append] at hw
    rcases hw with hw | hw
    · simp only [List.mem_cons, List.not_mem_nil, or_false] at hw
      omega
    · exact words_le _ hbt w hw

/-- A datagram without a checksum (zero) gets a made-up one, and receivers drop it. -/
theorem C71_udp_checksum_invented :
    ∃ p n n1 n2, Bytes p ∧ ihl p + n ≤ p.length ∧ 8 ≤ n ∧ n1 ≤ 65535 ∧ n2 ≤ 65535 ∧
      ¬ (224 ≤ p.getD 16 0 ∧ p.getD 16 0 ≤ 239) ∧ 20 ≤ ihl p ∧ p.getD 9 0 = 17 ∧ HeaderValid p ∧
      be16 p (ihl p + 6) = 0 ∧ UdpValid p n ∧ ¬ UdpValid (rewrite p n1 n2) n :=
  ⟨pkt 17 0xf8 0x28 0 0, 8, 0xc0a8, 0x01ff, by unfold Bytes; decide, by decide, by decide, by decide, by decide,
   by decide, by decide, by decide, by unfold HeaderValid; decide, by decide, by unfold UdpValid; decide,
   by unfold UdpValid; decide⟩

end Verif.Cksum
