import Verif.TcPktLemmas
/-!
C19: the fragments of a TC fit and announce every advertised neighbour exactly once.
C60: the border addresses are computed within their storage.
C61: the address ranges of the fragments tile the address space.
-/
namespace Verif.TcPkt

/-! ### Specification -/

/-- Bytes of a message with that many neighbours. -/
def msgSize (ipsize n : Nat) : Nat := (8 + ipsize) + 4 + n * (ipsize + 4)

/-- A neighbour with an address of `ipsize` bytes and byte-sized link quality. -/
def GoodItem (ipsize : Nat) (n : Item) : Prop :=
  n.addr.length = ipsize ∧ (∀ x ∈ n.addr, x < 256) ∧ n.lq < 256 ∧ n.nlq < 256

/-- The header fields have the size of their fields. -/
def GoodHdr (h : Hdr) : Prop :=
  h.seq < 65536 ∧ h.ansn < 65536

/-- What a neighbour must be to be advertised: symmetric, reachable over a link that is not broken,
and with redundancy 1 an MPR or MPR selector, with redundancy 0 an MPR selector. -/
def Advertised (redundancy : Nat) (c : Cand) : Prop :=
  c.sym = true ∧ (∃ cost lq nlq, c.link = some (cost, lq, nlq) ∧ cost < 2 ^ 22) ∧
  (redundancy = 1 → c.isMpr = true ∨ c.mprSel = true) ∧ (redundancy = 0 → c.mprSel = true)

/-- The fragments cover the addresses from `lo` on, one after the other, up to the last address: the
borders computed by the receiver fit together, and all neighbours of a fragment are within its
borders (the address with all bits set excepted, which the upper border does not include). -/
inductive Tile (L : Nat) : List Nat → List Frag → Prop where
  | last {lo : List Nat} {f : Frag} {a b : Item} (hf : f.items.head? = some a)
      (hl : f.items.getLast? = some b)
      (hc : calcBorders f.lower f.upper a.addr b.addr = some (some (lo, List.replicate L 0xff)))
      (hi : ∀ n ∈ f.items, beVal lo ≤ beVal n.addr) : Tile L lo [f]
  | more {lo mid : List Nat} {f : Frag} {fs : List Frag} {a b : Item}
      (hf : f.items.head? = some a) (hl : f.items.getLast? = some b)
      (hc : calcBorders f.lower f.upper a.addr b.addr = some (some (lo, mid)))
      (hi : ∀ n ∈ f.items, beVal lo ≤ beVal n.addr ∧ beVal n.addr < beVal mid)
      (hr : Tile L mid fs) : Tile L lo (f :: fs)

/-- The same without the neighbours: the ranges of the fragments follow each other from `lo` on. -/
inductive Chained (L : Nat) : List Nat → List Frag → Prop where
  | last {lo : List Nat} {f : Frag} {a b : Item} (hf : f.items.head? = some a)
      (hl : f.items.getLast? = some b)
      (hc : calcBorders f.lower f.upper a.addr b.addr = some (some (lo, List.replicate L 0xff))) :
      Chained L lo [f]
  | more {lo mid : List Nat} {f : Frag} {fs : List Frag} {a b : Item}
      (hf : f.items.head? = some a) (hl : f.items.getLast? = some b)
      (hc : calcBorders f.lower f.upper a.addr b.addr = some (some (lo, mid)))
      (hr : Chained L mid fs) : Chained L lo (f :: fs)

/-! ### C19: the neighbour list -/

private theorem insertSorted_perm (k : List Nat → Nat) (n : Item) (l : List Item) :
    (insertSorted k n l).Perm (n :: l) := by
  induction l with
  | nil => exact List.Perm.refl _
  | cons x xs ih =>
    unfold insertSorted
    split
    · exact List.Perm.refl _
    · exact (List.Perm.cons x ih).trans (List.Perm.swap n x xs)

private theorem insertSorted_sorted (k : List Nat → Nat) (n : Item) (l : List Item)
    (h : l.Pairwise (fun x y => k x.addr ≤ k y.addr)) :
    (insertSorted k n l).Pairwise (fun x y => k x.addr ≤ k y.addr) := by
  induction l with
  | nil => exact List.pairwise_singleton _ _
  | cons x xs ih =>
    rw [List.pairwise_cons] at h
    unfold insertSorted
    split
    · rename_i hg
      rw [List.pairwise_cons, List.pairwise_cons]
      refine ⟨?_, h⟩
      intro y hy
      rcases List.mem_cons.1 hy with rfl | hy
      · exact Nat.le_of_lt hg
      · exact Nat.le_trans (Nat.le_of_lt hg) (h.1 y hy)
    · rename_i hg
      rw [List.pairwise_cons]
      refine ⟨?_, ih h.2⟩
      intro y hy
      rcases List.mem_cons.1 ((insertSorted_perm k n xs).mem_iff.1 hy) with rfl | hy
      · exact Nat.le_of_not_gt hg
      · exact h.1 y hy

private theorem advertise_some {r : Nat} {c : Cand} {n : Item} :
    advertise r c = some n ↔ Advertised r c ∧ ∃ cost, c.link = some (cost, n.lq, n.nlq) ∧
      n.addr = c.addr := by
  unfold advertise Advertised
  constructor
  · intro h
    split at h
    · cases h
    · rename_i h1
      split at h
      · cases h
      · rename_i h2
        split at h
        · cases h
        · rename_i h3
          split at h
          · cases h
          · rename_i cost lq nlq hl
            split at h
            · cases h
            · rename_i h4
              cases h
              refine ⟨⟨by simpa using h1, ⟨cost, lq, nlq, hl, ?_⟩, ?_, ?_⟩, cost, hl, rfl⟩
              · exact Nat.lt_of_not_ge h4
              · intro hr
                rcases hm : c.isMpr with _ | _
                · rcases hs : c.mprSel with _ | _
                  · exact absurd ⟨hr, hm, hs⟩ h2
                  · exact Or.inr rfl
                · exact Or.inl rfl
              · intro hr
                rcases hs : c.mprSel with _ | _
                · exact absurd ⟨hr, hs⟩ h3
                · rfl
  · rintro ⟨⟨h1, ⟨cost, lq, nlq, hl, hc⟩, h2, h3⟩, cost', hl', ha⟩
    rw [hl] at hl'
    cases hl'
    rw [if_neg (by rw [h1]; decide), if_neg, if_neg, hl]
    · simp only
      rw [if_neg (show ¬ cost ≥ linkCostBroken from Nat.not_le_of_lt hc), ← ha]
    · rintro ⟨hr, hs⟩
      rw [h3 hr] at hs; cases hs
    · rintro ⟨hr, hm, hs⟩
      rcases h2 hr with h | h
      · rw [h] at hm; cases hm
      · rw [h] at hs; cases hs

private theorem createTc_aux (k : List Nat → Nat) (r : Nat) : ∀ (cs : List Cand) (acc : List Item),
    acc.Pairwise (fun x y => k x.addr ≤ k y.addr) →
    (cs.foldl (fun acc c =>
      match advertise r c with
      | none => acc
      | some n => insertSorted k n acc) acc).Perm (cs.filterMap (advertise r) ++ acc) ∧
    (cs.foldl (fun acc c =>
      match advertise r c with
      | none => acc
      | some n => insertSorted k n acc) acc).Pairwise (fun x y => k x.addr ≤ k y.addr) := by
  intro cs
  induction cs with
  | nil => intro acc h; exact ⟨List.Perm.refl _, h⟩
  | cons c cs ih =>
    intro acc h
    rw [List.foldl_cons]
    cases hc : advertise r c with
    | none =>
      rw [List.filterMap_cons_none hc]
      exact ih acc h
    | some n =>
      simp only
      rw [List.filterMap_cons_some hc]
      obtain ⟨h1, h2⟩ := ih (insertSorted k n acc) (insertSorted_sorted k n acc h)
      refine ⟨h1.trans ?_, h2⟩
      refine (List.Perm.append_left _ (insertSorted_perm k n acc)).trans ?_
      exact List.perm_middle

/-- The list of a TC contains each neighbour that is to be advertised exactly once, with the quality
of its best link, sorted by address. -/
theorem C19_list (k : List Nat → Nat) (r : Nat) (cs : List Cand) :
    (createTc k r cs).Perm (cs.filterMap (advertise r)) ∧
    (createTc k r cs).Pairwise (fun x y => k x.addr ≤ k y.addr) ∧
    (∀ n, n ∈ createTc k r cs ↔ ∃ c ∈ cs, Advertised r c ∧ n.addr = c.addr ∧
      ∃ cost, c.link = some (cost, n.lq, n.nlq)) := by
  have h := createTc_aux k r cs [] List.Pairwise.nil
  rw [List.append_nil] at h
  refine ⟨h.1, h.2, fun n => ?_⟩
  have hp : (createTc k r cs).Perm (cs.filterMap (advertise r)) := h.1
  rw [hp.mem_iff, List.mem_filterMap]
  constructor
  · rintro ⟨c, hc, ha⟩
    obtain ⟨h1, cost, h2, h3⟩ := advertise_some.1 ha
    exact ⟨c, hc, h1, h3, cost, h2⟩
  · rintro ⟨c, hc, h1, h3, cost, h2⟩
    exact ⟨c, hc, advertise_some.2 ⟨h1, cost, h2, h3⟩⟩

/-! ### C19: the fragments -/

/-- The loop once the first neighbour is in: it does not abort, keeps all neighbours in order, and
every fragment has the size it may have. -/
private theorem fragLoop_ok {item : Nat} {full : Int} (hfull : (item : Int) ≤ full) :
    ∀ (ns : List Item) (rem : Int) (left : Nat) (last : List Nat) (cur : List Item), cur ≠ [] →
    ((cur.length * item : Nat) : Int) ≤ rem →
    ∃ f fs, fragLoop item full rem left (some last) (cur.length * item) cur ns = some (f :: fs) ∧
      f.items ++ (fs.map (fun f => f.items)).flatten = cur ++ ns ∧
      ((f.items.length * item : Nat) : Int) ≤ rem ∧ f.items ≠ [] ∧ f.lower = left ∧
      (∀ g ∈ fs, ((g.items.length * item : Nat) : Int) ≤ full ∧ g.items ≠ []) := by
  intro ns
  induction ns with
  | nil =>
    intro rem left last cur hc hs
    refine ⟨_, _, by rw [fragLoop], by simp, hs, hc, rfl, (fun _ h => (by cases h))⟩
  | cons n ns ih =>
    intro rem left last cur hc hs
    rw [fragLoop]
    split
    · have h1 : ((([n] : List Item).length * item : Nat) : Int) ≤ full := by simpa using hfull
      obtain ⟨f, fs, e1, e2, e3, e4, e5, e6⟩ :=
        ih full (borderFlag last n.addr) n.addr [n] (by simp) h1
      have e1' : fragLoop item full full (borderFlag last n.addr) (some n.addr) item [n] ns =
          some (f :: fs) := by
        simpa using e1
      rw [e1']
      refine ⟨_, _, rfl, ?_, hs, hc, rfl, ?_⟩
      · show cur ++ _ = _
        rw [List.map_cons, List.flatten_cons, e2]
        rfl
      · intro g hg
        rcases List.mem_cons.1 hg with rfl | hg
        · exact ⟨e3, e4⟩
        · exact e6 g hg
    · rename_i hle
      have hlen : (cur ++ [n]).length * item = cur.length * item + item := by
        rw [List.length_append, List.length_singleton, Nat.add_mul, Nat.one_mul]
      obtain ⟨f, fs, e1, e2, e3, e4, e5, e6⟩ :=
        ih rem left n.addr (cur ++ [n]) (by simp) (by rw [hlen]; exact Int.not_lt.1 hle)
      rw [hlen] at e1
      exact ⟨f, fs, e1, by rw [e2, List.append_assoc]; rfl, e3, e4, e5, e6⟩

/-- C19: if an empty buffer has room for one neighbour, the generation of a TC never aborts, the
fragments announce the list in order and nothing else, and each fragment fits: the first one in what
is left of the buffer, unless that is flushed, the others in an empty buffer.  Only an empty TC has an
empty fragment.

Full statement: without the hypothesis `hroom`.  It fails: `C19_small_buffer_aborts`. -/
theorem C19_fragments_partial {ipsize left pending full : Nat} (ns : List Item)
    (hroom : msgSize ipsize 1 ≤ full) (hp : pending = 0 → left = full) (hle : left ≤ full) :
    ∃ f fs, serialize ipsize left pending full ns = some (f :: fs) ∧
      (((f :: fs).map (fun f => f.items)).flatten = ns) ∧
      (∀ g ∈ f :: fs, msgSize ipsize g.items.length ≤ full) ∧
      (flushes ipsize left pending ns = false → msgSize ipsize f.items.length ≤ left) ∧
      (ns ≠ [] → ∀ g ∈ f :: fs, g.items ≠ []) := by
  have hoff : off ipsize = 8 + ipsize + 4 := rfl
  have hitem : itemSize ipsize = ipsize + 4 := rfl
  unfold msgSize at hroom ⊢
  rw [Nat.one_mul] at hroom
  cases ns with
  | nil =>
    refine ⟨_, _, by rw [serialize, fragLoop], rfl, ?_, ?_, fun h => absurd rfl h⟩
    · intro g hg
      rw [List.mem_singleton] at hg
      subst hg
      show 8 + ipsize + 4 + 0 * _ ≤ full
      omega
    · intro hf
      show 8 + ipsize + 4 + 0 * _ ≤ left
      unfold flushes at hf
      rw [decide_eq_false_iff_not, hoff] at hf
      have : ((if 0 < pending then ([] : List Item).length * itemSize ipsize else 0 : Nat)) = 0 := by
        split
        · rw [List.length_nil, Nat.zero_mul]
        · rfl
      rw [this] at hf
      omega
  | cons n ns =>
    obtain ⟨rem, hrem⟩ : ∃ rem : Int, (if flushes ipsize left pending (n :: ns) then
      (full : Int) - off ipsize else (left : Int) - off ipsize) = rem := ⟨_, rfl⟩
    have hcase : (flushes ipsize left pending (n :: ns) = true ∧ rem = (full : Int) - off ipsize) ∨
        (flushes ipsize left pending (n :: ns) = false ∧ rem = (left : Int) - off ipsize) := by
      cases hfl : flushes ipsize left pending (n :: ns) with
      | true => rw [hfl, if_pos rfl] at hrem; exact Or.inl ⟨rfl, hrem.symm⟩
      | false =>
        rw [hfl, if_neg (by decide)] at hrem; exact Or.inr ⟨rfl, hrem.symm⟩
    have hfit : ((itemSize ipsize : Nat) : Int) ≤ rem := by
      rcases hcase with ⟨_, h⟩ | ⟨hfl, h⟩
      · omega
      · rw [h]
        by_cases hp0 : pending = 0
        · rw [hp hp0]; omega
        · unfold flushes at hfl
          rw [decide_eq_false_iff_not, if_pos (by omega), List.length_cons, Nat.succ_mul] at hfl
          omega
    unfold serialize
    rw [hrem, fragLoop, if_neg (by rw [Nat.zero_add]; omega)]
    have h1 : ((([n] : List Item).length * itemSize ipsize : Nat) : Int) ≤ rem := by
      rw [List.length_singleton, Nat.one_mul]; exact hfit
    obtain ⟨f, fs, e1, e2, e3, e4, e5, e6⟩ := fragLoop_ok (item := itemSize ipsize)
      (full := (full : Int) - off ipsize) (by omega) ns rem 0xff n.addr [n] (by simp) h1
    rw [List.length_singleton, Nat.one_mul] at e1
    rw [Nat.zero_add, List.nil_append]
    refine ⟨f, fs, e1, ?_, ?_, ?_, ?_⟩
    · rw [List.map_cons, List.flatten_cons, e2]; rfl
    · intro g hg
      rcases List.mem_cons.1 hg with rfl | hg
      · rw [hitem] at e3
        rcases hcase with ⟨_, h⟩ | ⟨_, h⟩ <;> omega
      · have := (e6 g hg).1
        rw [hitem] at this
        omega
    · intro hfl
      rcases hcase with ⟨h, _⟩ | ⟨_, h⟩
      · rw [hfl] at h; cases h
      · rw [hitem] at e3
        omega
    · intro _ g hg
      rcases List.mem_cons.1 hg with rfl | hg
      · exact e4
      · exact (e6 g hg).2

/-- In a buffer that is too small for one neighbour, generating a TC with neighbours runs into the
assertion: the daemon aborts. -/
theorem C19_small_buffer_aborts {ipsize pending full : Nat} {ns : List Item} (hn : ns ≠ [])
    (hroom : full < msgSize ipsize 1) :
    serialize ipsize full pending full ns = none := by
  unfold msgSize at hroom
  rw [Nat.one_mul] at hroom
  cases ns with
  | nil => exact absurd rfl hn
  | cons n ns =>
    unfold serialize
    rw [ite_self, fragLoop, if_pos]
    show _ < ((0 + (ipsize + 4) : Nat) : Int)
    have : off ipsize = 8 + ipsize + 4 := rfl
    omega

/-! ### C19: the bytes -/

private theorem be16_val {x : Nat} (h : x < 65536) : x / 256 % 256 * 256 + x % 256 = x := by omega

private theorem itemsBytes_length {ipsize : Nat} : ∀ (ns : List Item), (∀ n ∈ ns, n.addr.length = ipsize) →
    (ns.map itemBytes).flatten.length = ns.length * itemSize ipsize := by
  intro ns
  induction ns with
  | nil => intro _; rw [List.length_nil, Nat.zero_mul]; rfl
  | cons n ns ih =>
    intro h
    rw [List.map_cons, List.flatten_cons, List.length_append,
      ih (fun x hx => h x (List.mem_cons_of_mem _ hx)), List.length_cons, Nat.succ_mul]
    have : (itemBytes n).length = itemSize ipsize := by
      unfold itemBytes itemSize
      rw [List.length_append, h n (List.mem_cons_self ..)]
      rfl
    omega

/-- The header of a message is read back as it was written, and what follows it are the bytes of the
neighbours; the length in the header is the length of the message. -/
theorem C19_header {ipsize : Nat} {h : Hdr} {ns : List Item} (hh : GoodHdr h)
    (ho : h.orig.length = ipsize) (hi : ∀ n ∈ ns, n.addr.length = ipsize)
    (hsz : msgSize ipsize ns.length < 65536) :
    readHdr ipsize (encode h ns) = some (h, (ns.map itemBytes).flatten) ∧
    (encode h ns).length = msgSize ipsize ns.length ∧
    (encode h ns).getD 2 0 * 256 + (encode h ns).getD 3 0 = msgSize ipsize ns.length := by
  have hb := itemsBytes_length ns hi
  obtain ⟨vtime, orig, ttl, hops, seq, ansn, lower, upper⟩ := h
  simp only at ho
  obtain ⟨hs, ha⟩ := hh
  simp only at hs ha
  have hsize : off ipsize + ns.length * itemSize ipsize = msgSize ipsize ns.length := rfl
  have henc : encode ⟨vtime, orig, ttl, hops, seq, ansn, lower, upper⟩ ns =
      [202, vtime, msgSize ipsize ns.length / 256 % 256, msgSize ipsize ns.length % 256] ++
        (orig ++ ([ttl, hops, seq / 256 % 256, seq % 256, ansn / 256 % 256, ansn % 256, lower,
          upper] ++ (ns.map itemBytes).flatten)) := by
    unfold encode be16
    simp only [ho, hsize, List.append_assoc, List.cons_append, List.nil_append]
  rw [henc]
  generalize hB : (ns.map itemBytes).flatten = B at *
  generalize msgSize ipsize ns.length = z at *
  have hz : z = 8 + ipsize + 4 + B.length := by rw [← hsize, hb]; rfl
  have hlen : ([202, vtime, z / 256 % 256, z % 256] ++ (orig ++ ([ttl, hops, seq / 256 % 256,
      seq % 256, ansn / 256 % 256, ansn % 256, lower, upper] ++ B))).length = z := by
    simp only [List.length_append, List.length_cons, List.length_nil, ho]
    omega
  refine ⟨?_, hlen, ?_⟩
  · unfold readHdr
    rw [hlen, if_neg (show ¬ z < off ipsize by unfold off; omega)]
    have hg : ∀ i, ([202, vtime, z / 256 % 256, z % 256] ++ (orig ++ ([ttl, hops, seq / 256 % 256,
        seq % 256, ansn / 256 % 256, ansn % 256, lower, upper] ++ B))).getD (4 + ipsize + i) 0 =
        ([ttl, hops, seq / 256 % 256, seq % 256, ansn / 256 % 256, ansn % 256, lower, upper] ++
          B).getD i 0 := by
      intro i
      rw [List.getD_eq_getElem?_getD, List.getElem?_append_right (by simp; omega),
        List.getElem?_append_right (by simp; omega), ← List.getD_eq_getElem?_getD]
      congr 1
      simp only [List.length_cons, List.length_nil, ho]
      omega
    have e0 := hg 0
    have e1 := hg 1
    have e2 := hg 2
    have e3 := hg 3
    have e4 := hg 4
    have e5 := hg 5
    have e6 := hg 6
    have e7 := hg 7
    rw [show 4 + ipsize + 0 = 4 + ipsize by omega] at e0
    rw [show 4 + ipsize + 1 = 5 + ipsize by omega] at e1
    rw [show 4 + ipsize + 2 = 6 + ipsize by omega] at e2
    rw [show 4 + ipsize + 3 = 7 + ipsize by omega] at e3
    rw [show 4 + ipsize + 4 = 8 + ipsize by omega] at e4
    rw [show 4 + ipsize + 5 = 9 + ipsize by omega] at e5
    rw [show 4 + ipsize + 6 = 10 + ipsize by omega] at e6
    rw [show 4 + ipsize + 7 = 11 + ipsize by omega] at e7
    rw [e0, e1, e2, e3, e4, e5, e6, e7]
    have hd : ([202, vtime, z / 256 % 256, z % 256] ++ (orig ++ ([ttl, hops, seq / 256 % 256,
        seq % 256, ansn / 256 % 256, ansn % 256, lower, upper] ++ B))).drop (off ipsize) = B := by
      rw [show off ipsize = 4 + (ipsize + 8) from by unfold off; omega, ← List.drop_drop]
      show List.drop (ipsize + 8) (orig ++ _) = B
      rw [← List.drop_drop, ← ho, List.drop_left]
      rfl
    have ht : (([202, vtime, z / 256 % 256, z % 256] ++ (orig ++ ([ttl, hops, seq / 256 % 256,
        seq % 256, ansn / 256 % 256, ansn % 256, lower, upper] ++ B))).drop 4).take ipsize = orig := by
      show List.take ipsize (orig ++ _) = orig
      rw [← ho, List.take_left]
    rw [hd, ht]
    show some (Hdr.mk vtime orig ttl hops (seq / 256 % 256 * 256 + seq % 256)
      (ansn / 256 % 256 * 256 + ansn % 256) lower upper, B) = _
    rw [be16_val hs, be16_val ha]
  · show z / 256 % 256 * 256 + z % 256 = z
    exact be16_val hsz

/-! ### C60 -/

/-- Exactly the flags from 1 to the number of address bits are harmless: any other flag (but 0xff)
makes the receiver write before the start of the address on its stack. -/
theorem C60_border_storage {flag : Nat} (hf : flag < 256) (a : List Nat) (ha : a.length ≤ 16) :
    (∃ m, borderAddr flag a = some m ∧ m.length = a.length) ↔ 1 ≤ flag ∧ flag ≤ 8 * a.length := by
  unfold borderAddr
  simp only
  constructor
  · rintro ⟨m, h, _⟩
    split at h
    · rename_i h1
      omega
    · cases h
  · intro h
    rw [if_pos (by omega)]
    refine ⟨_, rfl, ?_⟩
    simp only [List.length_append, List.length_take, List.length_singleton, List.length_replicate]
    omega

/-- A message with border flags of its sender's choice makes an IPv4 node write outside the address;
an upper flag alone is enough. -/
theorem C60_writes_outside :
    calcBorders 33 0xff [10, 0, 0, 1] [10, 0, 0, 9] = none ∧
    calcBorders 0 1 [10, 0, 0, 1] [10, 0, 0, 9] = none ∧
    calcBorders 0xff 254 [10, 0, 0, 1] [10, 0, 0, 9] = none := by decide

private theorem borderFlag_symm : ∀ (x y : List Nat), x.length = y.length →
    borderFlag x y = borderFlag y x := by
  intro x
  induction x with
  | nil => intro y hy; cases y with
    | nil => rfl
    | cons _ _ => cases hy
  | cons u us ih =>
    intro y hy
    cases y with
    | nil => cases hy
    | cons v vs =>
      have hl' : us.length = vs.length := Nat.succ.inj hy
      unfold borderFlag
      by_cases e : u = v
      · rw [if_pos e, if_pos e.symm, ih vs hl']
      · rw [if_neg e, if_neg (fun h => e h.symm), hl']
        have : ∀ f p, bitLoop u v f p = bitLoop v u f p := by
          intro f
          induction f with
          | zero => intro p; rfl
          | succ f ihf =>
            intro p
            unfold bitLoop
            rw [ihf]
            by_cases e2 : u &&& ((0xfe <<< p) % 256) = v &&& ((0xfe <<< p) % 256)
            · rw [if_pos e2, if_pos e2.symm]
            · rw [if_neg e2, if_neg (fun h => e2 h.symm)]
        rw [this]

private theorem border_either {a b : List Nat} (hl : a.length = b.length) (hn : a.length ≤ 16)
    (ha : ∀ x ∈ a, x < 256) (hb : ∀ x ∈ b, x < 256) (h : beVal a ≠ beVal b) :
    ∃ m, borderAddr (borderFlag a b) a = some m ∧ borderAddr (borderFlag a b) b = some m ∧
      1 ≤ borderFlag a b ∧ borderFlag a b ≤ 8 * a.length := by
  rcases Nat.lt_or_gt_of_ne h with h | h
  · obtain ⟨m, m1, m2, _, _, _, _, h1, h2⟩ := border_between hl hn ha hb h
    exact ⟨m, m1, m2, h1, h2⟩
  · obtain ⟨m, m1, m2, _, _, _, _, h1, h2⟩ := border_between hl.symm (by omega) hb ha h
    rw [borderFlag_symm a b hl]
    exact ⟨m, m2, m1, h1, by omega⟩

/-- C60 for the messages that this code generates itself: the flag of the border between two
different addresses is harmless.

Full statement: for all flags.  It fails: `C60_writes_outside`. -/
theorem C60_own_flags_partial {a b : List Nat} (hl : a.length = b.length) (hn : a.length ≤ 16)
    (ha : ∀ x ∈ a, x < 256) (hb : ∀ x ∈ b, x < 256) (h : beVal a ≠ beVal b) :
    1 ≤ borderFlag a b ∧ borderFlag a b ≤ 8 * a.length := by
  obtain ⟨_, _, _, h1, h2⟩ := border_either hl hn ha hb h
  exact ⟨h1, h2⟩

/-! ### C61 -/

/-- The lower border the receiver computes. -/
private def low (flag : Nat) (a : List Nat) : Option (List Nat) :=
  if flag = 0xff then some (List.replicate a.length 0) else borderAddr flag a

private theorem fragLoop_chained {item : Nat} {full : Int} {L : Nat} (hL : L ≤ 16) :
    ∀ (ns : List Item) (rem : Int) (left : Nat) (b : Item) (size : Nat) (c : Item) (cur : List Item)
      (lo : List Nat) (fs : List Frag),
    (∀ n ∈ (c :: cur) ++ ns, n.addr.length = L ∧ ∀ x ∈ n.addr, x < 256) →
    ((c :: cur) ++ ns).Pairwise (fun x y => beVal x.addr ≠ beVal y.addr) →
    (c :: cur).getLast? = some b → low left c.addr = some lo → left ≠ 0 →
    fragLoop item full rem left (some b.addr) size (c :: cur) ns = some fs → Chained L lo fs := by
  intro ns
  induction ns with
  | nil =>
    intro rem left b size c cur lo fs hg hs hb hlo h0 h
    rw [fragLoop] at h
    cases h
    refine Chained.last (a := c) (b := b) rfl hb ?_
    have hcb : b.addr.length = L := (hg b (by
      rw [List.append_nil]; exact List.mem_of_getLast? hb)).1
    show calcBorders left 0xff c.addr b.addr = _
    unfold calcBorders
    rw [if_neg (fun h => h0 h.1), if_pos rfl, hcb]
    unfold low at hlo
    rw [hlo]
  | cons n ns ih =>
    intro rem left b size c cur lo fs hg hs hb hlo h0 h
    rw [fragLoop] at h
    have hbm : b ∈ c :: cur := List.mem_of_getLast? hb
    have hgb := hg b (List.mem_append_left _ hbm)
    have hgn := hg n (List.mem_append_right _ (List.mem_cons_self ..))
    rw [List.pairwise_append] at hs
    have hbn : beVal b.addr ≠ beVal n.addr := hs.2.2 b hbm n (List.mem_cons_self ..)
    split at h
    · obtain ⟨mid, m1, m2, m7, m8⟩ :=
        border_either (hgb.1.trans hgn.1.symm) (by omega) hgb.2 hgn.2 hbn
      cases hrec : fragLoop item full full (borderFlag b.addr n.addr) (some n.addr) item [n] ns with
      | none => rw [hrec] at h; cases h
      | some gs =>
        rw [hrec] at h
        cases h
        have hff : borderFlag b.addr n.addr ≠ 0xff := by omega
        refine Chained.more (a := c) (b := b) (mid := mid) rfl hb ?_ ?_
        · show calcBorders left (borderFlag b.addr n.addr) c.addr b.addr = _
          unfold calcBorders
          rw [if_neg (fun h => h0 h.1), if_neg hff, m1]
          unfold low at hlo
          rw [hlo]
        · refine ih full (borderFlag b.addr n.addr) n item n [] mid gs ?_ ?_ rfl ?_ (by omega) hrec
          · intro x hx
            exact hg x (List.mem_append_right _ hx)
          · exact hs.2.1
          · unfold low
            rw [if_neg hff]; exact m2
    · refine ih rem left n (size + item) c (cur ++ [n]) lo fs ?_ ?_ ?_ hlo h0 h
      · intro x hx
        exact hg x (by simpa using hx)
      · have : (c :: (cur ++ [n])) ++ ns = (c :: cur) ++ n :: ns := by simp
        rw [this, List.pairwise_append]
        exact hs
      · rw [← List.cons_append, List.getLast?_append]
        rfl

/-- On every host the ranges that receivers compute follow each other without gap or overlap of the
borders, from the lowest address to the highest. -/
theorem C61_consecutive {L left pending full : Nat} (hL : L ≤ 16) {ns : List Item} (hne : ns ≠ [])
    (hg : ∀ n ∈ ns, GoodItem L n) (hd : ns.Pairwise (fun x y => x.addr ≠ y.addr)) {fs : List Frag}
    (h : serialize L left pending full ns = some fs) : Chained L (List.replicate L 0) fs := by
  cases ns with
  | nil => exact absurd rfl hne
  | cons n ns =>
    unfold serialize at h
    obtain ⟨rem, hrem⟩ : ∃ rem : Int, (if flushes L left pending (n :: ns) then
      (full : Int) - off L else (left : Int) - off L) = rem := ⟨_, rfl⟩
    rw [hrem, fragLoop] at h
    split at h
    · cases h
    · rw [List.nil_append] at h
      refine fragLoop_chained hL ns _ 0xff n _ n [] (List.replicate L 0) fs ?_ ?_ rfl ?_ (by decide) h
      · intro x hx
        exact ⟨(hg x hx).1, (hg x hx).2.1⟩
      · refine List.Pairwise.imp_of_mem ?_ hd
        intro x y hx hy hxy he
        exact hxy (beVal_inj _ _ ((hg x hx).1.trans (hg y hy).1.symm) (hg x hx).2.1 (hg y hy).2.1 he)
      · unfold low
        rw [if_pos rfl, (hg n (List.mem_cons_self ..)).1]

private theorem fragLoop_tile {item : Nat} {full : Int} {L : Nat} (hL : L ≤ 16) :
    ∀ (ns : List Item) (rem : Int) (left : Nat) (b : Item) (size : Nat) (c : Item) (cur : List Item)
      (lo : List Nat) (fs : List Frag),
    (∀ n ∈ (c :: cur) ++ ns, n.addr.length = L ∧ ∀ x ∈ n.addr, x < 256) →
    ((c :: cur) ++ ns).Pairwise (fun x y => beVal x.addr < beVal y.addr) →
    (c :: cur).getLast? = some b → low left c.addr = some lo → left ≠ 0 →
    (∀ n ∈ c :: cur, beVal lo ≤ beVal n.addr) →
    fragLoop item full rem left (some b.addr) size (c :: cur) ns = some fs → Tile L lo fs := by
  intro ns
  induction ns with
  | nil =>
    intro rem left b size c cur lo fs hg hs hb hlo h0 hi h
    rw [fragLoop] at h
    cases h
    refine Tile.last (a := c) (b := b) rfl hb ?_ hi
    have hcb : b.addr.length = L := (hg b (by
      rw [List.append_nil]; exact List.mem_of_getLast? hb)).1
    show calcBorders left 0xff c.addr b.addr = _
    unfold calcBorders
    rw [if_neg (fun h => h0 h.1), if_pos rfl, hcb]
    unfold low at hlo
    rw [hlo]
  | cons n ns ih =>
    intro rem left b size c cur lo fs hg hs hb hlo h0 hi h
    rw [fragLoop] at h
    have hbm : b ∈ c :: cur := List.mem_of_getLast? hb
    have hgb := hg b (List.mem_append_left _ hbm)
    have hgn := hg n (List.mem_append_right _ (List.mem_cons_self ..))
    rw [List.pairwise_append] at hs
    have hbn : beVal b.addr < beVal n.addr := hs.2.2 b hbm n (List.mem_cons_self ..)
    split at h
    · obtain ⟨mid, m1, m2, m3, m4, m5, m6, m7, m8⟩ :=
        border_between (hgb.1.trans hgn.1.symm) (by omega) hgb.2 hgn.2 hbn
      cases hrec : fragLoop item full full (borderFlag b.addr n.addr) (some n.addr) item [n] ns with
      | none => rw [hrec] at h; cases h
      | some gs =>
        rw [hrec] at h
        cases h
        have hff : borderFlag b.addr n.addr ≠ 0xff := by omega
        refine Tile.more (a := c) (b := b) (mid := mid) rfl hb ?_ ?_ ?_
        · show calcBorders left (borderFlag b.addr n.addr) c.addr b.addr = _
          unfold calcBorders
          rw [if_neg (fun h => h0 h.1), if_neg hff, m1]
          unfold low at hlo
          rw [hlo]
        · intro x hx
          refine ⟨hi x hx, ?_⟩
          -- the last neighbour of the fragment is the largest
          have hx2 : beVal x.addr ≤ beVal b.addr := by
            have hsc := hs.1
            obtain ⟨p, hp⟩ : ∃ p, c :: cur = p ++ [b] := by
              have hne : c :: cur ≠ [] := by simp
              refine ⟨(c :: cur).dropLast, ?_⟩
              have := List.dropLast_concat_getLast hne
              rw [List.getLast?_eq_some_getLast hne, Option.some.injEq] at hb
              rw [← hb]; exact this.symm
            have hx' : x ∈ c :: cur := hx
            rw [hp] at hx' hsc
            rcases List.mem_append.1 hx' with h | h
            · exact Nat.le_of_lt ((List.pairwise_append.1 hsc).2.2 x h b (by simp))
            · rw [List.mem_singleton] at h; rw [h]; exact Nat.le_refl _
          omega
        · refine ih full (borderFlag b.addr n.addr) n item n [] mid gs ?_ ?_ rfl ?_ (by omega) ?_ hrec
          · intro x hx
            exact hg x (List.mem_append_right _ hx)
          · exact hs.2.1
          · unfold low
            rw [if_neg hff]; exact m2
          · intro x hx
            rw [List.mem_singleton] at hx
            rw [hx]; exact m6
    · refine ih rem left n (size + item) c (cur ++ [n]) lo fs ?_ ?_ ?_ hlo h0 ?_ h
      · intro x hx
        exact hg x (by simpa using hx)
      · have : (c :: (cur ++ [n])) ++ ns = (c :: cur) ++ n :: ns := by simp
        rw [this, List.pairwise_append]
        exact hs
      · rw [← List.cons_append, List.getLast?_append]
        rfl
      · intro x hx
        rw [← List.cons_append] at hx
        rcases List.mem_append.1 hx with hx | hx
        · exact hi x hx
        · rw [List.mem_singleton] at hx
          rw [hx]
          exact Nat.le_trans (hi b hbm) (Nat.le_of_lt hbn)

/-- C61 where addresses are compared byte by byte, that is for IPv6 and on big-endian hosts: the
borders the receivers compute from the fragments cut the address space into consecutive ranges, from
the first to the last address, and each fragment announces only neighbours in its range.

Full statement: the same for lists sorted by `key v6 hostBE` with any `v6` and `hostBE`.  It fails:
`C61_little_endian`. -/
theorem C61_tile_partial {L left pending full : Nat} (hL : L ≤ 16) {v6 hostBE : Bool}
    (hbe : v6 = true ∨ hostBE = true) {ns : List Item}
    (hne : ns ≠ []) (hg : ∀ n ∈ ns, GoodItem L n)
    (hs : ns.Pairwise (fun x y => key v6 hostBE x.addr < key v6 hostBE y.addr))
    {fs : List Frag} (h : serialize L left pending full ns = some fs) :
    Tile L (List.replicate L 0) fs := by
  cases ns with
  | nil => exact absurd rfl hne
  | cons n ns =>
    unfold serialize at h
    obtain ⟨rem, hrem⟩ : ∃ rem : Int, (if flushes L left pending (n :: ns) then
      (full : Int) - off L else (left : Int) - off L) = rem := ⟨_, rfl⟩
    rw [hrem, fragLoop] at h
    split at h
    · cases h
    · rw [List.nil_append] at h
      refine fragLoop_tile hL ns _ 0xff n _ n [] (List.replicate L 0) fs ?_ ?_ rfl ?_ (by decide) ?_ h
      · intro x hx
        exact ⟨(hg x hx).1, (hg x hx).2.1⟩
      · have hk : key v6 hostBE = beVal := by
          funext a
          unfold key
          rcases hbe with h | h <;> rw [h] <;> simp
        rw [hk] at hs
        exact hs
      · unfold low
        rw [if_pos rfl, (hg n (List.mem_cons_self ..)).1]
      · intro x _
        rw [beVal_zeros]
        exact Nat.zero_le _

/-- On a little-endian host IPv4 addresses are sorted by their last byte first, but the flags are
computed from the first byte that differs.  Here two fragments announce 10.0.0.1 and 9.0.0.2, in that
order; the border the receiver computes is 10.0.0.0, which in its order comes before both. -/
theorem C61_little_endian :
    createTc (key false false) 2
      [⟨[9, 0, 0, 2], true, true, true, some (1, 255, 255)⟩,
       ⟨[10, 0, 0, 1], true, true, true, some (1, 255, 255)⟩] =
      [⟨[10, 0, 0, 1], 255, 255⟩, ⟨[9, 0, 0, 2], 255, 255⟩] ∧
    serialize 4 24 0 24 [⟨[10, 0, 0, 1], 255, 255⟩, ⟨[9, 0, 0, 2], 255, 255⟩] =
      some [⟨0xff, 26, [⟨[10, 0, 0, 1], 255, 255⟩]⟩, ⟨26, 0xff, [⟨[9, 0, 0, 2], 255, 255⟩]⟩] ∧
    calcBorders 0xff 26 [10, 0, 0, 1] [10, 0, 0, 1] = some (some ([0, 0, 0, 0], [10, 0, 0, 0])) ∧
    calcBorders 26 0xff [9, 0, 0, 2] [9, 0, 0, 2] =
      some (some ([10, 0, 0, 0], [255, 255, 255, 255])) ∧
    key false false [10, 0, 0, 0] < key false false [10, 0, 0, 1] := by decide

/-! ### Examples -/

/-- Three neighbours in a buffer with room for two. -/
example : serialize 4 32 0 32 [⟨[10, 0, 0, 1], 255, 200⟩, ⟨[10, 0, 0, 2], 255, 255⟩,
      ⟨[10, 0, 1, 0], 1, 2⟩] =
    some [⟨0xff, 9, [⟨[10, 0, 0, 1], 255, 200⟩, ⟨[10, 0, 0, 2], 255, 255⟩]⟩,
      ⟨9, 0xff, [⟨[10, 0, 1, 0], 1, 2⟩]⟩] := by decide

/-- The border between them, seen from both sides. -/
example : calcBorders 0xff 9 [10, 0, 0, 1] [10, 0, 0, 2] =
      some (some ([0, 0, 0, 0], [10, 0, 1, 0])) ∧
    calcBorders 9 0xff [10, 0, 1, 0] [10, 0, 1, 0] =
      some (some ([10, 0, 1, 0], [255, 255, 255, 255])) := by decide

/-- With something pending and no room, the buffer is flushed first. -/
example : flushes 4 30 2 [⟨[10, 0, 0, 1], 255, 200⟩, ⟨[10, 0, 0, 2], 255, 255⟩] = true ∧
    serialize 4 30 2 32 [⟨[10, 0, 0, 1], 255, 200⟩, ⟨[10, 0, 0, 2], 255, 255⟩] =
      some [⟨0xff, 0xff, [⟨[10, 0, 0, 1], 255, 200⟩, ⟨[10, 0, 0, 2], 255, 255⟩]⟩] := by decide

/-- A message and its header. -/
example : encode ⟨5, [10, 0, 0, 9], 255, 0, 258, 3, 0xff, 0xff⟩ [⟨[10, 0, 0, 1], 255, 200⟩] =
    [202, 5, 0, 24, 10, 0, 0, 9, 255, 0, 1, 2, 0, 3, 255, 255, 10, 0, 0, 1, 255, 200, 0, 0] := by
  decide

/-- Redundancy 0 advertises MPR selectors only. -/
example : (createTc (key false false) 0
      [⟨[10, 0, 0, 2], true, true, false, some (1, 255, 255)⟩,
       ⟨[10, 0, 0, 3], true, false, true, some (1, 255, 255)⟩,
       ⟨[10, 0, 0, 4], true, false, true, none⟩,
       ⟨[10, 0, 0, 1], true, false, true, some (1, 100, 100)⟩]) =
    [⟨[10, 0, 0, 1], 100, 100⟩, ⟨[10, 0, 0, 3], 255, 255⟩] := by decide

end Verif.TcPkt
