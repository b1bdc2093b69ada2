import Verif.NlModel

/-!
# C57, C78, C79 — requests to the kernel
-/

namespace Verif.Nl

/-! ## Specification: how the kernel reads a request -/

/-- a little-endian number -/
def num : List Nat → Nat
  | [] => 0
  | x :: xs => x + 256 * num xs

/-- the attributes in a stretch of bytes: length (with its four bytes of header), type, data;
the next one starts at the next multiple of four -/
def attrs : Nat → List Nat → List (Nat × List Nat)
  | 0, _ => []
  | n + 1, b =>
    if b.length < 4 ∨ num (b.take 2) < 4 ∨ b.length < num (b.take 2) then []
    else (num ((b.drop 2).take 2), (b.take (num (b.take 2))).drop 4) :: attrs n (b.drop ((num (b.take 2) + 3) / 4 * 4))

/-- the data of the attribute of a type; if there are several the last one counts -/
def attr (l : List (Nat × List Nat)) (t : Nat) : Option (List Nat) := (l.reverse.find? (fun a => a.1 == t)).map (·.2)

/-- what a route request says -/
structure View where
  /-- 24: new route, 25: delete route -/
  type : Nat
  flags : Nat
  family : Nat
  table : Nat
  dst : Option (List Nat)
  plen : Nat
  gw : Option (List Nat)
  oif : Option Nat
  prio : Option Nat
  src : Option (List Nat)
  proto : Nat
  scope : Nat
  rtype : Nat
  rflags : Nat
deriving DecidableEq, Repr

/-- how the kernel reads a route request; a table attribute overrides the field of the header -/
def kernelRoute (b : List Nat) : Option View :=
  if b.length < 28 ∨ num (b.take 4) ≠ b.length then none
  else
    let l := attrs b.length (b.drop 28)
    some ⟨num ((b.drop 4).take 2), num ((b.drop 6).take 2), b.getD 16 0,
      ((attr l 15).map num).getD (b.getD 20 0), attr l 1, b.getD 17 0, attr l 5, (attr l 4).map num,
      (attr l 6).map num, attr l 7, b.getD 21 0, b.getD 22 0, b.getD 23 0, num ((b.drop 24).take 4)⟩

/-- the number of bits of an address -/
def bits (p : Req) : Nat := if p.family = 2 then 32 else 128

/-- what the request should say -/
def wanted (p : Req) : View where
  type := if p.set then 24 else 25
  flags := if p.set then 0x400 + 0x100 + 4 + 1 else 4 + 1
  family := p.family
  table := p.table
  dst := some (p.dst.take (bits p / 8))
  plen := p.plen
  gw := match p.gw with
    | some g => some (g.take (bits p / 8))
    | none => if p.plen = bits p then some (p.dst.take (bits p / 8)) else none
  oif := if (p.set ∨ ¬ p.similar) ∧ ¬ p.blackhole then some p.ifIndex else none
  prio := if 0 ≤ p.metric then some p.metric.toNat else none
  src := if p.set then p.src.map (·.take (bits p / 8)) else none
  proto := if p.set then p.protocol else 0
  scope := if ¬ p.set ∧ p.similar then 255 else p.scope
  rtype := if p.blackhole then 6 else 1
  rflags := if p.gw = none ∧ p.plen ≠ bits p then p.flags - p.flags / 4 % 2 * 4 else p.flags

/-- arguments in the range of their types -/
structure Ok (p : Req) : Prop where
  family : p.family = 2 ∨ p.family = 10
  table : p.table < 4294967296
  flags : p.flags < 4294967296
  scope : p.scope < 256
  ifIndex : p.ifIndex < 2147483648
  metric : p.metric < 2147483648
  protocol : p.protocol < 256
  src : ∀ s, p.src = some s → s.length = 16
  gw : ∀ g, p.gw = some g → g.length = 16
  dst : p.dst.length = 16
  plen : p.plen ≤ bits p

/-! ## Helpers -/

private def enc (a : Nat × List Nat) : List Nat := le16 (4 + a.2.length) ++ le16 a.1 ++ a.2

private theorem enc_len (a : Nat × List Nat) : (enc a).length = 4 + a.2.length := by
  simp only [enc, le16, List.length_append, List.length_cons, List.length_nil]

private def mem (n : Nat) (A body : List Nat) (z : Nat) : List Nat :=
  le32 n ++ A ++ body ++ List.replicate z 0

private theorem put_eq {m a b c d : List Nat} {i : Nat} (h : m = a ++ b ++ c) (hi : i = a.length) (hb : b.length = d.length) :
    put m i d = a ++ d ++ c := by
  subst h hi
  unfold put
  rw [List.append_assoc a b c, List.take_left, ← List.append_assoc, List.drop_append_of_le_length (by simp; omega),
    List.drop_eq_nil_of_le (by simp; omega), List.nil_append]

private theorem le32_num {n : Nat} (h : n < 4294967296) : num (le32 n) = n := by
  simp only [le32, num]; omega

private theorem le16_num {n : Nat} (h : n < 65536) : num (le16 n) = n := by
  simp only [le16, num]; omega

private theorem rd32_mem {n : Nat} (h : n < 4294967296) (A body : List Nat) (z : Nat) : rd32 (mem n A body z) 0 = n := by
  show n % 256 + n / 256 % 256 * 256 + n / 65536 % 256 * 65536 + n / 16777216 % 256 * 16777216 = n
  omega

private theorem addreq_gen (n0 : Nat) {n : Nat} {A body : List Nat} {z t : Nat} {d : List Nat} (hn : n < 4000000000)
    (hA : 4 + A.length + body.length = n) (ha : align4 n0 = n) (hz : 4 + d.length ≤ z) :
    addreq (mem n0 A body z) t d = some (mem (n + 4 + d.length) A (body ++ enc (t, d)) (z - (4 + d.length))) := by
  have hn0 : n0 ≤ n := by unfold align4 at ha; omega
  have h1 : align4 (rd32 (mem n0 A body z) 0) = n := by
    rw [rd32_mem (by omega)]; exact ha
  have hl : (mem n0 A body z).length = n + z := by
    simp only [mem, le32, List.length_append, List.length_cons, List.length_nil, List.length_replicate]; omega
  unfold addreq
  rw [h1, hl, if_pos (by omega)]
  congr 1
  have hz' : List.replicate z 0 = List.replicate 2 0 ++ (List.replicate 2 0 ++ (List.replicate d.length 0 ++ List.replicate (z - (4 + d.length)) 0)) := by
    rw [List.replicate_append_replicate, List.replicate_append_replicate, List.replicate_append_replicate]; congr 1; omega
  have e1 : put (mem n0 A body z) 0 (le32 (n + 4 + d.length)) = mem (n + 4 + d.length) A body z := by
    refine (put_eq (a := []) (b := le32 n0) (c := A ++ body ++ List.replicate z 0) (d := le32 (n + 4 + d.length)) ?_ rfl rfl).trans ?_
    · simp only [mem, List.nil_append, List.append_assoc]
    · simp only [mem, List.nil_append, List.append_assoc]
  have e2 : put (mem (n + 4 + d.length) A body z) (n + 2) (le16 t) =
      le32 (n + 4 + d.length) ++ A ++ body ++ List.replicate 2 0 ++ le16 t ++ (List.replicate d.length 0 ++ List.replicate (z - (4 + d.length)) 0) := by
    refine (put_eq (a := le32 (n + 4 + d.length) ++ A ++ body ++ List.replicate 2 0) (b := List.replicate 2 0)
      (c := List.replicate d.length 0 ++ List.replicate (z - (4 + d.length)) 0) ?_ ?_ rfl)
    · simp only [mem, hz', List.append_assoc]
    · simp only [le32, List.length_append, List.length_cons, List.length_nil, List.length_replicate]; omega
  have e3 : put (le32 (n + 4 + d.length) ++ A ++ body ++ List.replicate 2 0 ++ le16 t ++ (List.replicate d.length 0 ++ List.replicate (z - (4 + d.length)) 0)) n (le16 (4 + d.length)) =
      le32 (n + 4 + d.length) ++ A ++ body ++ le16 (4 + d.length) ++ (le16 t ++ (List.replicate d.length 0 ++ List.replicate (z - (4 + d.length)) 0)) := by
    refine put_eq (b := List.replicate 2 0) ?_ ?_ rfl
    · simp only [List.append_assoc]
    · simp only [le32, List.length_append, List.length_cons, List.length_nil]; omega
  have e4 : put (le32 (n + 4 + d.length) ++ A ++ body ++ le16 (4 + d.length) ++ (le16 t ++ (List.replicate d.length 0 ++ List.replicate (z - (4 + d.length)) 0))) (n + 4) d =
      le32 (n + 4 + d.length) ++ A ++ body ++ le16 (4 + d.length) ++ le16 t ++ d ++ List.replicate (z - (4 + d.length)) 0 := by
    refine put_eq (b := List.replicate d.length 0) ?_ ?_ (by simp)
    · simp only [List.append_assoc]
    · simp only [le32, le16, List.length_append, List.length_cons, List.length_nil]; omega
  rw [e1, e2, e3, e4]
  simp only [mem, enc, List.append_assoc]

private theorem addreq_mem {n : Nat} {A body : List Nat} {z t : Nat} {d : List Nat} (hn : n < 4000000000)
    (hA : 4 + A.length + body.length = n) (ha : n % 4 = 0) (hz : 4 + d.length ≤ z) :
    addreq (mem n A body z) t d = some (mem (n + 4 + d.length) A (body ++ enc (t, d)) (z - (4 + d.length))) :=
  addreq_gen n hn hA (by unfold align4; omega) hz

private theorem attrs_key (a : Nat × List Nat) (rest : List Nat) (k : Nat) (h1 : a.1 < 65536) (h2 : a.2.length < 60000) :
    attrs (k + 1) (enc a ++ rest) = a :: attrs k ((enc a ++ rest).drop ((4 + a.2.length + 3) / 4 * 4)) := by
  have t2 : (enc a ++ rest).take 2 = le16 (4 + a.2.length) := rfl
  have d2 : ((enc a ++ rest).drop 2).take 2 = le16 a.1 := rfl
  rw [attrs, t2, d2, le16_num (by omega), le16_num h1]
  have hlen : (enc a ++ rest).length = 4 + a.2.length + rest.length := by rw [List.length_append, enc_len]
  rw [if_neg (by omega)]
  have : ((enc a ++ rest).take (4 + a.2.length)).drop 4 = a.2 := by
    rw [List.take_left' (enc_len a)]; rfl
  rw [this]

/-- attributes come out as they went in; only the last one may have an odd size -/
private theorem attrs_enc (l : List (Nat × List Nat)) (e : Nat × List Nat) (n : Nat) (hn : l.length < n)
    (hl : ∀ a ∈ l, a.1 < 65536 ∧ a.2.length < 60000 ∧ a.2.length % 4 = 0) (he : e.1 < 65536 ∧ e.2.length < 60000) :
    attrs n (l.flatMap enc ++ enc e) = l ++ [e] := by
  induction l generalizing n with
  | nil =>
    obtain ⟨k, rfl⟩ : ∃ k, n = k + 1 := ⟨n - 1, by simp at hn; omega⟩
    have := attrs_key e [] k he.1 he.2
    rw [List.append_nil] at this
    rw [List.flatMap_nil, List.nil_append, this, List.nil_append, List.drop_eq_nil_of_le (by rw [enc_len]; omega)]
    cases k with
    | zero => rfl
    | succ k => rw [attrs, if_pos (Or.inl (by simp))]
  | cons a l ih =>
    obtain ⟨k, rfl⟩ : ∃ k, n = k + 1 := ⟨n - 1, by simp at hn; omega⟩
    obtain ⟨h1, h2, h3⟩ := hl a (List.mem_cons_self ..)
    rw [List.flatMap_cons, List.append_assoc, attrs_key a _ k h1 h2]
    have : (4 + a.2.length + 3) / 4 * 4 = (enc a).length := by rw [enc_len]; omega
    rw [this, List.drop_left, ih k (by simp at hn; omega) (fun x hx => hl x (List.mem_cons_of_mem _ hx)), List.cons_append]

/-- the fixed part of a route request behind its length -/
private def head (p : Req) (t : Nat) (f : Nat) : List Nat :=
  le16 (if p.set then 24 else 25) ++ le16 (if p.set then 1285 else 5) ++ [0, 0, 0, 0, 0, 0, 0, 0] ++
  [p.family, p.plen % 256, 0, 0, t, if p.set then p.protocol % 256 else 0, if !p.set && p.similar then 255 else p.scope,
   if p.blackhole then 6 else 1] ++ le32 f

private def zeros28 : List Nat := [0, 0, 0, 0, 0, 0, 0, 0, 0, 0, 0, 0, 0, 0, 0, 0, 0, 0, 0, 0, 0, 0, 0, 0, 0, 0, 0, 0]

private theorem zeros_split (n : Nat) : List.replicate (28 + n) 0 = zeros28 ++ List.replicate n 0 := by
  rw [← List.replicate_append_replicate]
  exact congrArg (· ++ List.replicate n 0) (show List.replicate 28 0 = zeros28 by decide)

private theorem fixed_gen (Z : List Nat) (p : Req) :
    fixedPart p (put (put (put (zeros28 ++ Z) 24 (le32 p.flags)) 16 [p.family]) 20 [p.table]) =
      le32 28 ++ head p p.table p.flags ++ [] ++ Z := by
  obtain ⟨fam, tb, fl, sc, ifi, me, pr, sr, gw, ds, pl, se, si, bl⟩ := p
  cases se <;>
  simp only [fixedPart, zeros28, put, le32, le16, head, List.cons_append, List.nil_append, List.take_succ_cons, List.take_zero,
    List.drop_succ_cons, List.drop_zero, List.length_cons, List.length_nil, if_true, if_false, Bool.false_eq_true, Nat.reduceAdd,
    List.append_nil]

private theorem fixed_large (Z : List Nat) (p : Req) (x : List Nat) (hx : x.length = 4) :
    (addreq (put (put (put (zeros28 ++ Z) 24 (le32 p.flags)) 16 [p.family]) 20 [0]) 15 x).map (fixedPart p) =
      some (le32 28 ++ head p 0 p.flags ++ [] ++ Z) := by
  obtain ⟨fam, tb, fl, sc, ifi, me, pr, sr, gw, ds, pl, se, si, bl⟩ := p
  obtain ⟨a, b, c, d, rfl⟩ : ∃ a b c d, x = [a, b, c, d] := by
    match x, hx with
    | [a, b, c, d], _ => exact ⟨a, b, c, d, rfl⟩
  have hm : (put (put (put (zeros28 ++ Z) 24 (le32 fl)) 16 [fam]) 20 [0]) =
      [0, 0, 0, 0, 0, 0, 0, 0, 0, 0, 0, 0, 0, 0, 0, 0, fam, 0, 0, 0, 0, 0, 0, 0] ++ (le32 fl ++ Z) := by
    simp only [zeros28, put, le32, List.cons_append, List.nil_append, List.take_succ_cons, List.take_zero,
      List.drop_succ_cons, List.drop_zero, List.length_cons, List.length_nil, Nat.reduceAdd]
  simp only [hm]
  have h0 : rd32 ([0, 0, 0, 0, 0, 0, 0, 0, 0, 0, 0, 0, 0, 0, 0, 0, fam, 0, 0, 0, 0, 0, 0, 0] ++ (le32 fl ++ Z)) 0 = 0 := by
    simp only [rd32, List.cons_append, List.getD_cons_zero, List.getD_cons_succ, Nat.zero_add, Nat.zero_mul]
  unfold addreq
  rw [h0, show align4 0 = 0 from rfl, if_pos (by simp), Option.map_some]
  refine congrArg some ?_
  cases se <;>
  simp only [fixedPart, put, le32, le16, head, List.cons_append, List.nil_append, List.take_succ_cons, List.take_zero,
    List.drop_succ_cons, List.drop_zero, List.length_cons, List.length_nil, if_true, if_false, Bool.false_eq_true, Nat.reduceAdd,
    List.append_nil]

private def memL (A : List Nat) (l : List (Nat × List Nat)) : List Nat :=
  mem (28 + (l.flatMap enc).length) A (l.flatMap enc) (1024 - (l.flatMap enc).length)

private def Att (l : List (Nat × List Nat)) : Prop := ∀ a ∈ l, a.1 < 65536 ∧ a.2.length ≤ 16 ∧ a.2.length % 4 = 0

private theorem att_len {l : List (Nat × List Nat)} (h : Att l) :
    (l.flatMap enc).length ≤ 20 * l.length ∧ (l.flatMap enc).length % 4 = 0 := by
  induction l with
  | nil => exact ⟨Nat.le_refl _, rfl⟩
  | cons a l ih =>
    have := ih (fun x hx => h x (List.mem_cons_of_mem _ hx))
    have ha := h a (List.mem_cons_self ..)
    rw [List.flatMap_cons, List.length_append, enc_len, List.length_cons]
    omega

private theorem fixed_part (p : Req) : ∃ m, tablePart p = some m ∧
    fixedPart p m = memL (head p (if p.table < 256 then p.table else 0) p.flags) [] := by
  unfold tablePart
  rw [show (1052 : Nat) = 28 + 1024 from rfl, zeros_split]
  by_cases h : p.table < 256
  · simp only [if_pos h]
    exact ⟨_, rfl, fixed_gen _ p⟩
  · simp only [if_neg h]
    have := fixed_large (List.replicate 1024 0) p (le32 p.table) rfl
    rw [Option.map_eq_some_iff] at this
    exact this

private theorem addreq_L {A : List Nat} {l : List (Nat × List Nat)} {t : Nat} {d : List Nat} (hA : A.length = 24)
    (hl : Att l) (hn : l.length ≤ 40) (hd : d.length ≤ 100) :
    addreq (memL A l) t d = some (memL A (l ++ [(t, d)])) := by
  have := att_len hl
  unfold memL
  rw [addreq_mem (by omega) (by omega) (by omega) (by omega)]
  have e : ((l ++ [(t, d)]).flatMap enc) = l.flatMap enc ++ enc (t, d) := by
    rw [List.flatMap_append, List.flatMap_cons, List.flatMap_nil, List.append_nil]
  rw [e, List.length_append, show (enc (t, d)).length = 4 + d.length from enc_len (t, d)]
  congr 2 <;> omega

private theorem addIf_L {A : List Nat} {l : List (Nat × List Nat)} {c : Bool} {t : Nat} {d : List Nat} (hA : A.length = 24)
    (hl : Att l) (hn : l.length ≤ 40) (hd : d.length ≤ 100) :
    addIf c t d (memL A l) = some (memL A (l ++ if c then [(t, d)] else [])) := by
  unfold addIf
  cases c with
  | true => simp only [if_true]; exact addreq_L hA hl hn hd
  | false => simp only [if_false, Bool.false_eq_true, List.append_nil]

private theorem head_len (p : Req) (t f : Nat) : (head p t f).length = 24 := rfl

private theorem gateway_L (p : Req) (t f : Nat) (hf : f < 4294967296) {l : List (Nat × List Nat)}
    (hl : Att l) (hn : l.length ≤ 40) (hd : p.dst.length = 16) :
    gatewayPart p (memL (head p t f) l) =
      some (match p.gw with
        | some g => memL (head p t f) (l ++ [(5, g.take p.size)])
        | none => if p.plen = 32 then memL (head p t f) (l ++ [(5, p.dst.take p.size)])
          else memL (head p t (f - f / 4 % 2 * 4)) l) := by
  have hs : p.size ≤ 16 := by unfold Req.size; split <;> omega
  unfold gatewayPart
  cases hp : p.gw with
  | some g =>
    simp only []
    rw [addreq_L (head_len ..) hl hn (by rw [List.length_take]; omega)]
  | none =>
    simp only []
    by_cases h : p.plen = 32
    · rw [if_pos h, if_pos h, addreq_L (head_len ..) hl hn (by rw [List.length_take]; omega)]
    · rw [if_neg h, if_neg h]
      congr 1
      have hr : rd32 (memL (head p t f) l) 24 = f := by
        show f % 256 + f / 256 % 256 * 256 + f / 65536 % 256 * 65536 + f / 16777216 % 256 * 16777216 = f
        omega
      rw [hr]
      generalize f - f / 4 % 2 * 4 = f'
      have hh : ∀ f, head p t f = (head p t 0).take 20 ++ le32 f := fun f => rfl
      unfold memL mem
      rw [hh f, hh f']
      generalize hz : List.flatMap enc l ++ List.replicate (1024 - (List.flatMap enc l).length) 0 = Z
      generalize hy : (List.take 20 (head p t 0)) = Y
      have hyl : Y.length = 20 := by rw [← hy]; rfl
      refine (put_eq (a := le32 (28 + (l.flatMap enc).length) ++ Y) (b := le32 f) (c := Z) (d := le32 f') ?_ ?_ rfl).trans ?_
      · rw [← hz]; simp only [List.append_assoc]
      · rw [List.length_append, hyl]; rfl
      · rw [← hz]; simp only [List.append_assoc]

/-- the attributes of a route request but the destination -/
private def attrList (p : Req) : List (Nat × List Nat) :=
  ((([] ++ if (p.set || !p.similar) && !p.blackhole then [(4, le32 p.ifIndex)] else []) ++
  (if p.set && p.src.isSome then [(7, (p.src.getD []).take p.size)] else [])) ++
  (if decide (0 ≤ p.metric) then [(6, le32 p.metric.toNat)] else [])) ++
  (match p.gw with
   | some g => [(5, g.take p.size)]
   | none => if p.plen = 32 then [(5, p.dst.take p.size)] else [])

private theorem size_cases (p : Req) : p.size = 4 ∨ p.size = 16 := by unfold Req.size; split <;> simp

private theorem att_snoc {l : List (Nat × List Nat)} (hl : Att l) {c : Prop} [Decidable c] {t : Nat} {d : List Nat} (ht : t < 65536)
    (hd : c → d.length = 4 ∨ d.length = 16) : Att (l ++ if c then [(t, d)] else []) := by
  intro a ha
  rcases List.mem_append.1 ha with ha | ha
  · exact hl a ha
  · split at ha
    · rename_i hc
      rw [List.mem_singleton] at ha
      subst ha
      have := hd hc
      exact ⟨ht, by simp only []; omega, by simp only []; omega⟩
    · cases ha

private theorem ite_len {c : Prop} [Decidable c] {a : Nat × List Nat} : (if c then [a] else []).length ≤ 1 := by
  split <;> simp

private theorem route_closed (p : Req) (ok : Ok p) :
    route p = some (memL (head p (if p.table < 256 then p.table else 0)
      (if p.gw = none ∧ p.plen ≠ 32 then p.flags - p.flags / 4 % 2 * 4 else p.flags))
      (attrList p ++ [(1, p.dst.take p.size)])) ∧ Att (attrList p ++ [(1, p.dst.take p.size)]) ∧ (attrList p).length ≤ 4 := by
  obtain ⟨m, hm, hm2⟩ := fixed_part p
  have hs := size_cases p
  have hdst : (p.dst.take p.size).length = 4 ∨ (p.dst.take p.size).length = 16 := by
    rw [List.length_take, ok.dst]; omega
  unfold route
  rw [hm, Option.bind_some, hm2]
  generalize (if p.table < 256 then p.table else 0) = t
  have a0 : Att [] := fun _ h => (by cases h)
  rw [addIf_L (head_len ..) a0 (by simp) (by simp [le32]), Option.bind_some]
  have a1 : Att ([] ++ if (p.set || !p.similar) && !p.blackhole then [(4, le32 p.ifIndex)] else []) :=
    att_snoc a0 (by omega) (fun _ => Or.inl rfl)
  have hsrc : (p.set && p.src.isSome) = true → ((p.src.getD []).take p.size).length = 4 ∨ ((p.src.getD []).take p.size).length = 16 := by
    intro h
    cases hs' : p.src with
    | none => rw [hs'] at h; simp at h
    | some s =>
      have := ok.src s hs'
      rw [Option.getD_some, List.length_take]; omega
  have l1 := @ite_len ((p.set || !p.similar) && !p.blackhole) _ (4, le32 p.ifIndex)
  have l2 := @ite_len (p.set && p.src.isSome) _ (7, (p.src.getD []).take p.size)
  have l3 := @ite_len (decide (0 ≤ p.metric)) _ (6, le32 p.metric.toNat)
  rw [addIf_L (head_len ..) a1 (by rw [List.length_append]; simp only [List.length_nil]; omega) (by
    rw [List.length_take]; omega), Option.bind_some]
  have a2 := att_snoc (c := (p.set && p.src.isSome) = true) (t := 7) a1 (by omega) hsrc
  rw [addIf_L (head_len ..) a2 (by simp only [List.length_append, List.length_nil]; omega) (by simp [le32]), Option.bind_some]
  have a3 := att_snoc (c := (decide (0 ≤ p.metric)) = true) (t := 6) (d := le32 p.metric.toNat) a2 (by omega) (fun _ => Or.inl rfl)
  rw [gateway_L p t p.flags ok.flags a3 (by simp only [List.length_append, List.length_nil]; omega) ok.dst, Option.bind_some]
  have a4 : Att (attrList p) := by
    unfold attrList
    intro a ha
    rcases List.mem_append.1 ha with ha | ha
    · exact a3 a ha
    · cases hg : p.gw with
      | some g =>
        rw [hg] at ha
        rw [List.mem_singleton.1 ha]
        have := ok.gw g hg
        refine ⟨by simp, ?_, ?_⟩ <;> simp only [List.length_take] <;> omega
      | none =>
        rw [hg] at ha
        simp only [] at ha
        split at ha
        · rw [List.mem_singleton.1 ha]
          have := ok.dst
          refine ⟨by simp, ?_, ?_⟩ <;> simp only [List.length_take] <;> omega
        · cases ha
  have l4 : (attrList p).length ≤ 4 := by
    unfold attrList
    simp only [List.length_append, List.length_nil]
    have : (match p.gw with
       | some g => [(5, g.take p.size)]
       | none => if p.plen = 32 then [(5, p.dst.take p.size)] else [] : List (Nat × List Nat)).length ≤ 1 := by
      split
      · simp
      · split <;> simp
    omega
  refine ⟨?_, ?_, l4⟩
  · rw [← addreq_L (head_len ..) a4 (by omega) (by omega)]
    unfold attrList
    cases hg : p.gw with
    | some g => simp only [reduceCtorEq, false_and, if_false]
    | none =>
      by_cases hp : p.plen = 32
      · simp only [hp, true_and, ne_eq, not_true_eq_false, if_false, if_true]
      · simp only [hp, true_and, ne_eq, not_false_eq_true, if_true, if_false, List.append_nil]
  · intro a ha
    rcases List.mem_append.1 ha with ha | ha
    · exact a4 a ha
    · rw [List.mem_singleton.1 ha]
      refine ⟨by simp, ?_, ?_⟩ <;> simp only [] <;> omega

private theorem sent_mem {n : Nat} {A body : List Nat} {z : Nat} (hn : n < 4294967296) (h : 4 + A.length + body.length = n) :
    sent (mem n A body z) = le32 n ++ A ++ body := by
  unfold sent
  rw [rd32_mem hn]
  unfold mem
  rw [List.take_left' (by simp only [le32, List.length_append, List.length_cons, List.length_nil]; omega)]

private theorem view_closed (p : Req) (t f : Nat) (hf : f < 4294967296) (l : List (Nat × List Nat)) (e : Nat × List Nat)
    (ha : Att (l ++ [e])) (hl : l.length ≤ 10) :
    kernelRoute (sent (memL (head p t f) (l ++ [e]))) =
      some ⟨if p.set then 24 else 25, if p.set then 1285 else 5, p.family,
        ((attr (l ++ [e]) 15).map num).getD t, attr (l ++ [e]) 1, p.plen % 256, attr (l ++ [e]) 5,
        (attr (l ++ [e]) 4).map num, (attr (l ++ [e]) 6).map num, attr (l ++ [e]) 7,
        if p.set then p.protocol % 256 else 0, if !p.set && p.similar then 255 else p.scope,
        if p.blackhole then 6 else 1, f⟩ := by
  have hlen := att_len ha
  have hll : (l ++ [e]).length = l.length + 1 := by simp
  unfold memL
  rw [sent_mem (by omega) (by rw [head_len])]
  have hfm : (l ++ [e]).flatMap enc = l.flatMap enc ++ enc e := by
    rw [List.flatMap_append, List.flatMap_cons, List.flatMap_nil, List.append_nil]
  have hat : attrs (28 + ((l ++ [e]).flatMap enc).length) ((l ++ [e]).flatMap enc) = l ++ [e] := by
    have hle : l.length < 28 + ((l ++ [e]).flatMap enc).length := by omega
    generalize 28 + ((l ++ [e]).flatMap enc).length = k at hle
    rw [hfm]
    refine attrs_enc l e k hle (fun a h => ?_) ?_
    · have := ha a (List.mem_append_left _ h); exact ⟨this.1, by omega, this.2.2⟩
    · have := ha e (List.mem_append_right _ (List.mem_singleton.2 rfl)); exact ⟨this.1, by omega⟩
  generalize hN : 28 + ((l ++ [e]).flatMap enc).length = N at hat ⊢
  generalize (l ++ [e]).flatMap enc = B at hat hN hlen
  have hbl : (le32 N ++ head p t f ++ B).length = N := by
    rw [List.length_append, List.length_append, head_len]; simp only [le32, List.length_cons, List.length_nil]; omega
  have hd28 : (le32 N ++ head p t f ++ B).drop 28 = B := List.drop_left' (by rw [List.length_append, head_len]; rfl)
  unfold kernelRoute
  rw [hbl, hd28, hat]
  have h4 : (le32 N ++ head p t f ++ B).take 4 = le32 N := rfl
  have hff : ((le32 N ++ head p t f ++ B).drop 24).take 4 = le32 f := rfl
  have h46 : ((le32 N ++ head p t f ++ B).drop 4).take 2 = le16 (if p.set then 24 else 25) := rfl
  have h66 : ((le32 N ++ head p t f ++ B).drop 6).take 2 = le16 (if p.set then 1285 else 5) := rfl
  rw [h4, hff, h46, h66, le32_num (by omega), le32_num hf, le16_num (by split <;> omega), le16_num (by split <;> omega),
    if_neg (by omega)]
  rfl

private theorem route_view (p : Req) (ok : Ok p) :
    ∃ m, route p = some m ∧ kernelRoute (sent m) = some
      { wanted p with
        table := if p.table < 256 then p.table else 0
        gw := match p.gw with
          | some g => some (g.take (bits p / 8))
          | none => if p.plen = 32 then some (p.dst.take (bits p / 8)) else none
        rflags := if p.gw = none ∧ p.plen ≠ 32 then p.flags - p.flags / 4 % 2 * 4 else p.flags } := by
  obtain ⟨h1, h2, h3⟩ := route_closed p ok
  refine ⟨_, h1, ?_⟩
  have hf := ok.flags
  rw [view_closed p _ _ (by split <;> omega) _ _ h2 (by omega)]
  have hb : bits p / 8 = p.size := by unfold bits Req.size; split <;> rfl
  have hpl : p.plen % 256 = p.plen := by have := ok.plen; unfold bits at this; split at this <;> omega
  have hpr : p.protocol % 256 = p.protocol := by have := ok.protocol; omega
  have hif : num (le32 p.ifIndex) = p.ifIndex := le32_num (by have := ok.ifIndex; omega)
  have hme : num (le32 p.metric.toNat) = p.metric.toNat := le32_num (by have := ok.metric; omega)
  unfold wanted
  rw [hb, hpl, hpr]
  clear h1 h2 h3
  generalize (if p.table < 256 then p.table else 0) = t
  generalize (if p.gw = none ∧ p.plen ≠ 32 then p.flags - p.flags / 4 % 2 * 4 else p.flags) = f
  obtain ⟨fam, tb, fl, sc, ifi, me, pr, sr, gw, ds, pl, se, si, bl⟩ := p
  by_cases hm : 0 ≤ me <;> by_cases hpl2 : pl = 32 <;> cases gw <;> cases sr <;> cases se <;> cases si <;> cases bl <;>
    simp [attrList, attr, hm, hpl2, hif, hme]

/-! ## C57 -/

/-- The kernel reads a route request as it was meant: table, destination, gateway (a host route
without gateway names its destination), interface, metric, source, protocol, scope, type and
flags.  For table numbers below 256 (`C57_large_table_lost`), and for IPv6 not for host routes and
/32 prefixes without gateway (`C57_ipv6_host_route`, `C57_ipv6_prefix_32`). -/
theorem C57_route_partial (p : Req) (ok : Ok p) (ht : p.table < 256)
    (h6 : p.family = 2 ∨ p.gw ≠ none ∨ (p.plen ≠ 32 ∧ p.plen ≠ 128)) :
    ∃ m, route p = some m ∧ kernelRoute (sent m) = some (wanted p) := by
  obtain ⟨m, h1, h2⟩ := route_view p ok
  refine ⟨m, h1, h2.trans ?_⟩
  have hbits : p.gw = none → (p.plen = 32 ↔ p.plen = bits p) := by
    intro hg
    unfold bits
    rcases h6 with h | h | h
    · rw [if_pos h]
    · exact absurd hg h
    · split <;> omega
  congr 1
  unfold wanted
  rw [if_pos ht]
  cases hg : p.gw with
  | some g => simp
  | none =>
    have := hbits hg
    by_cases h : p.plen = 32
    · have hb := this.1 h
      simp [h, ← hb]
    · have hb : ¬ p.plen = bits p := fun hh => h (this.2 hh)
      simp [h, hb]

/-- The attribute with a table number of 256 or more is overwritten by the header: the request is,
byte for byte, the one for table 0 ("unspecified"). -/
theorem C57_large_table_lost (p : Req) (ok : Ok p) (ht : 256 ≤ p.table) :
    ∃ m v, route p = some m ∧ route { p with table := 0 } = some m ∧ kernelRoute (sent m) = some v ∧ v.table = 0 := by
  have ok0 : Ok { p with table := 0 } :=
    ⟨ok.family, by show 0 < 4294967296; omega, ok.flags, ok.scope, ok.ifIndex, ok.metric, ok.protocol, ok.src, ok.gw, ok.dst, ok.plen⟩
  obtain ⟨m, h1, h2⟩ := route_view p ok
  refine ⟨m, _, h1, ?_, h2, if_neg (by omega)⟩
  have hc := (route_closed p ok).1
  have hc0 := (route_closed _ ok0).1
  rw [h1, if_neg (by omega)] at hc
  rw [hc, hc0]
  rfl

/-- Attributes of any two lengths that are added one after the other are read back: the second
starts at the next multiple of four. -/
theorem C57_attributes (A d1 d2 : List Nat) (t1 t2 : Nat) (hA : A.length = 24) (h1 : t1 < 65536) (h2 : t2 < 65536)
    (hl1 : d1.length ≤ 400) (hl2 : d2.length ≤ 400) :
    ∃ m, (addreq (le32 28 ++ A ++ List.replicate 1024 0) t1 d1).bind (fun m => addreq m t2 d2) = some m ∧
      attrs (sent m).length ((sent m).drop 28) = [(t1, d1), (t2, d2)] := by
  have hm0 : le32 28 ++ A ++ List.replicate 1024 0 = mem 28 A [] 1024 := by
    unfold mem; rw [List.append_nil]
  rw [hm0, addreq_mem (by omega) (by rw [hA]; rfl) (by rfl) (by omega), Option.bind_some, List.nil_append]
  obtain ⟨p, hp⟩ : ∃ p, p = (d1.length + 3) / 4 * 4 - d1.length := ⟨_, rfl⟩
  have hpad : mem (28 + 4 + d1.length) A (enc (t1, d1)) (1024 - (4 + d1.length)) =
      mem (28 + 4 + d1.length) A (enc (t1, d1) ++ List.replicate p 0) (1024 - (4 + d1.length) - p) := by
    unfold mem
    rw [← List.append_assoc, List.append_assoc (_ ++ _ ++ _) (List.replicate p 0), List.replicate_append_replicate]
    congr 2; omega
  have e1 : (enc (t1, d1)).length = 4 + d1.length := enc_len _
  rw [hpad, addreq_gen (28 + 4 + d1.length) (n := 28 + 4 + d1.length + p) (by omega)
    (by rw [List.length_append, List.length_replicate, e1, hA]; omega) (by unfold align4; omega) (by omega)]
  refine ⟨_, rfl, ?_⟩
  have e2 : (enc (t2, d2)).length = 4 + d2.length := enc_len _
  rw [sent_mem (by omega) (by rw [List.length_append, List.length_append, List.length_replicate, e1, e2, hA]; omega)]
  rw [List.drop_left' (by rw [List.length_append, hA]; rfl)]
  obtain ⟨k, hk⟩ : ∃ k, (le32 (28 + 4 + d1.length + p + 4 + d2.length) ++ A ++ (enc (t1, d1) ++ List.replicate p 0 ++ enc (t2, d2))).length = k + 3 :=
    ⟨(4 + 24 - 3) + ((4 + d1.length + p) + (4 + d2.length)), by
      simp only [List.length_append, List.length_replicate, e1, e2, hA, le32, List.length_cons, List.length_nil]; omega⟩
  rw [hk, List.append_assoc, attrs_key _ _ _ h1 (by simp only []; omega)]
  have e3 : (enc (t1, d1) ++ (List.replicate p 0 ++ enc (t2, d2))).drop ((4 + d1.length + 3) / 4 * 4) = enc (t2, d2) := by
    rw [← List.append_assoc, List.drop_left' (by rw [List.length_append, List.length_replicate, e1]; omega)]
  rw [e3]
  have := attrs_key (t2, d2) [] (k + 1) h2 (by simp only []; omega)
  rw [List.append_nil] at this
  rw [this, List.drop_eq_nil_of_le (by rw [e2]; simp only []; omega), attrs, if_pos (Or.inl (by simp))]

example : ([] : List Nat).length ≤ 400 ∧ (List.replicate 24 0).length = 24 ∧ [1, 2, 3].length ≤ 400 := by decide

/-- An IPv6 host route without gateway does not name its destination as gateway, and loses the
on-link flag. -/
theorem C57_ipv6_host_route (p : Req) (ok : Ok p) (hf : p.family = 10) (hg : p.gw = none) (hp : p.plen = 128) :
    ∃ m v, route p = some m ∧ kernelRoute (sent m) = some v ∧ v.gw = none ∧
      v.rflags = p.flags - p.flags / 4 % 2 * 4 ∧ (wanted p).gw = some p.dst ∧ (wanted p).rflags = p.flags := by
  obtain ⟨m, h1, h2⟩ := route_view p ok
  have hb : bits p = 128 := by unfold bits; rw [hf]; rfl
  refine ⟨m, _, h1, h2, ?_, ?_, ?_, ?_⟩
  · simp only [hg, hp]; rfl
  · simp only [hg, hp]; rfl
  · simp only [wanted, hg, hb, hp, if_true]
    rw [List.take_of_length_le (by rw [ok.dst]; decide)]
  · simp only [wanted, hg, hb, hp, ne_eq, not_true_eq_false, and_false, if_false]

/-- A request for an IPv6 network with a prefix of 32 bits and without gateway (such as a direct
route) names the network address as gateway. -/
theorem C57_ipv6_prefix_32 (p : Req) (ok : Ok p) (hf : p.family = 10) (hg : p.gw = none) (hp : p.plen = 32) :
    ∃ m v, route p = some m ∧ kernelRoute (sent m) = some v ∧ v.gw = some p.dst ∧ (wanted p).gw = none := by
  obtain ⟨m, h1, h2⟩ := route_view p ok
  have hb : bits p = 128 := by unfold bits; rw [hf]; rfl
  refine ⟨m, _, h1, h2, ?_, ?_⟩
  · simp only [hg, hp, hb, if_true]
    rw [List.take_of_length_le (by rw [ok.dst]; decide)]
  · simp only [wanted, hg, hb, hp]; rfl

/-- 10.0.0.7/32 over 10.0.0.1 with metric 2, and an IPv6 direct route -/
def exReq : Req := ⟨2, 254, 4, 0, 3, 2, 1, none, some [10, 0, 0, 1, 0, 0, 0, 0, 0, 0, 0, 0, 0, 0, 0, 0],
  [10, 0, 0, 7, 0, 0, 0, 0, 0, 0, 0, 0, 0, 0, 0, 0], 32, true, false, false⟩
def exReq6 (l : Nat) : Req := ⟨10, 254, 4, 0, 3, 2, 1, none, none,
  [253, 0, 0, 7, 0, 0, 0, 0, 0, 0, 0, 0, 0, 0, 0, 1], l, true, false, false⟩

example : Ok exReq ∧ Ok { exReq with table := 300 } ∧ Ok (exReq6 128) ∧ Ok (exReq6 32) ∧
    kernelRoute (sent ((route exReq).getD [])) = some ⟨24, 1285, 2, 254, some [10, 0, 0, 7], 32, some [10, 0, 0, 1], some 3,
      some 2, none, 1, 0, 1, 4⟩ := by
  refine ⟨⟨Or.inl rfl, by decide, by decide, by decide, by decide, by decide, by decide, fun s h => (by cases h),
      fun g h => (by cases h; rfl), rfl, by decide⟩,
    ⟨Or.inl rfl, by decide, by decide, by decide, by decide, by decide, by decide, fun s h => (by cases h),
      fun g h => (by cases h; rfl), rfl, by decide⟩,
    ⟨Or.inr rfl, by decide, by decide, by decide, by decide, by decide, by decide, fun s h => (by cases h),
      fun g h => (by cases h), rfl, by decide⟩,
    ⟨Or.inr rfl, by decide, by decide, by decide, by decide, by decide, by decide, fun s h => (by cases h),
      fun g h => (by cases h), rfl, by decide⟩, by decide +kernel⟩

/-! ## C78: answers belong to requests -/

/-- a series of requests with the kernel's answers: what is returned for each -/
def results : List Int → List (Int × Io) → List Int
  | _, [] => []
  | q, (a, io) :: xs => (send q a io).2 :: results (send q a io).1 xs

/-- As long as no read is interrupted, every request gets its own answer. -/
theorem C78_matched_partial (xs : List (Int × Io)) (h : ∀ x ∈ xs, x.2 ≠ .recvFails) :
    results [] xs = xs.map (fun x => if x.2 = .works then -x.1 else -1) := by
  induction xs with
  | nil => rfl
  | cons x xs ih =>
    obtain ⟨a, io⟩ := x
    have ih := ih (fun x hx => h x (List.mem_cons_of_mem _ hx))
    have h0 := h _ (List.mem_cons_self ..)
    rw [results, List.map_cons]
    cases io with
    | sendFails => simp only [send, ih]; rfl
    | recvFails => exact absurd rfl h0
    | works => simp only [send, ih, List.nil_append]; rfl

example : ∀ x ∈ [((0 : Int), Io.works), (-17, .works), (0, .sendFails)], x.2 ≠ .recvFails := by decide

/-- The sequence number of the answer is not checked.  After one interrupted read every later
request gets the answer of the request before it, for ever: failures are reported as success
and the reverse. -/
theorem C78_off_by_one (xs : List Int) (a : Int) :
    results [] ((a, .recvFails) :: xs.map (fun x => (x, .works))) = -1 :: ((a :: xs).dropLast).map (fun x => -x) := by
  have key : ∀ (xs : List Int) (a : Int), results [a] (xs.map (fun x => (x, .works))) = ((a :: xs).dropLast).map (fun x => -x) := by
    intro xs
    induction xs with
    | nil => intro a; rfl
    | cons x xs ih =>
      intro a
      rw [List.map_cons, results]
      simp only [send, List.cons_append, List.nil_append]
      rw [ih x]
      rfl
  rw [results]
  simp only [send, List.nil_append]
  rw [key]

/-! ## C79: routes and errors -/

/-- the configuration and route are such that the requests are well-formed IPv4 requests -/
structure Ok4 (c : Cfg) (r : Rt) : Prop where
  ipsize : c.ipsize = 4
  table : c.table < 256
  tableDefault : c.tableDefault < 256
  proto : c.proto < 256
  metric : -100 ≤ c.metricDefault ∧ c.metricDefault < 2147483000
  src : ∀ s, c.srcIp = some s → s.length = 16
  dst : r.dst.length = 16
  plen : r.plen ≤ 32
  best : ∀ b, r.best = some b → b.1.length = 16 ∧ b.2.1 < 2147483648 ∧ b.2.2 < 256
  inst : r.inst.1.length = 16 ∧ r.inst.2.1 < 2147483648 ∧ r.inst.2.2 < 256

/-- the metric a route should have in the kernel -/
def wantedMetric (c : Cfg) (r : Rt) (hops : Nat) : Int :=
  (if c.flat then c.metricDefault else hops) + (if c.smartGw ∧ r.inetgw then 2 else 0)

/-- the request, as the kernel reads it, is to set/delete exactly this route -/
def Asks (c : Cfg) (r : Rt) (set : Bool) (nh : List Nat × Nat × Nat) (q : Req) : Prop :=
  ∃ m v, route q = some m ∧ kernelRoute (sent m) = some v ∧
    v.type = (if set then 24 else 25) ∧ v.family = 2 ∧
    v.dst = some (r.dst.take 4) ∧ v.plen = r.plen ∧
    v.gw = some (nh.1.take 4) ∧ v.oif = some nh.2.1 ∧
    v.table = (if r.inetgw then c.tableDefault else c.table) ∧
    v.prio = (if 0 ≤ wantedMetric c r nh.2.2 then some (wantedMetric c r nh.2.2).toNat else none)

private theorem nh_ok {c : Cfg} {r : Rt} (ok : Ok4 c r) (set : Bool) :
    (nexthop r set).1.length = 16 ∧ (nexthop r set).2.1 < 2147483648 ∧ (nexthop r set).2.2 < 256 := by
  unfold nexthop
  cases hb : r.best with
  | none => exact ok.inst
  | some b => cases set with
    | true => exact ok.best b hb
    | false => exact ok.inst

private theorem asks_main {c : Cfg} {r : Rt} (ok : Ok4 c r) (set : Bool) (m : Int) (hm : m = wantedMetric c r (nexthop r set).2.2) :
    Asks c r set (nexthop r set) (mainReq c 2 r set m) := by
  have hn := nh_ok ok set
  have hmet := ok.metric
  have hq : Ok (mainReq c 2 r set m) := by
    refine ⟨Or.inl rfl, ?_, by show (4 : Nat) < _; omega, by show (0 : Nat) < _; omega, hn.2.1, ?_, ok.proto, ok.src, ?_, ok.dst, ok.plen⟩
    · have := ok.table; have := ok.tableDefault
      show (if r.inetgw then c.tableDefault else c.table) < _
      split <;> omega
    · show m < _
      rw [hm]
      unfold wantedMetric
      split <;> split <;> omega
    · intro g hg
      have hg : (if hostRoute c r set then none else some (nexthop r set).1) = some g := hg
      split at hg
      · cases hg
      · cases hg; exact hn.1
  have ht : (mainReq c 2 r set m).table < 256 := by
    have := ok.table; have := ok.tableDefault
    show (if r.inetgw then c.tableDefault else c.table) < _
    split <;> omega
  obtain ⟨b, h1, h2⟩ := C57_route_partial _ hq ht (Or.inl rfl)
  have hbits : bits (mainReq c 2 r set m) = 32 := if_pos rfl
  refine ⟨b, _, h1, h2, rfl, rfl, ?_, rfl, ?_, ?_, rfl, ?_⟩
  · show some (r.dst.take (bits (mainReq c 2 r set m) / 8)) = _
    rw [hbits]
  · show (match (if hostRoute c r set then none else some (nexthop r set).1 : Option (List Nat)) with
      | some g => some (g.take (bits (mainReq c 2 r set m) / 8))
      | none => if r.plen = bits (mainReq c 2 r set m) then some (r.dst.take (bits (mainReq c 2 r set m) / 8)) else none) = _
    rw [hbits]
    by_cases hh : hostRoute c r set = true
    · rw [if_pos hh]
      unfold hostRoute at hh
      rw [Bool.and_eq_true, decide_eq_true_eq, decide_eq_true_eq, ok.ipsize] at hh
      simp only []
      rw [if_pos hh.1, hh.2]
    · rw [if_neg hh]
  · show (if (set = true ∨ ¬ (false = true)) ∧ ¬ (false = true) then some (nexthop r set).2.1 else none) = _
    rw [if_pos ⟨Or.inr (by decide), by decide⟩]
  · show (if 0 ≤ m then some m.toNat else none) = _
    rw [hm]

private theorem metric_set {c : Cfg} {r : Rt} {set : Bool} {m : Int} (h : metric c r set = some m) :
    m = wantedMetric c r (nexthop r set).2.2 := by
  unfold metric at h
  unfold wantedMetric nexthop
  obtain ⟨fl, md, sg, t1, t2, pr, ips, si⟩ := c
  obtain ⟨ds, pl, ig, be, ins⟩ := r
  cases fl <;> cases sg <;> cases ig <;> cases set <;> cases be <;> simp_all

/-- If adding a route is reported as successful, then the last request was to set exactly this
route — destination, next hop, interface, table and metric of the best path — and the kernel
answered it with success. -/
theorem C79_add_acknowledged (c : Cfg) (r : Rt) (ok : Ok4 c r) (e1 e2 e3 : Int) (rs : List Req) (b : List Nat × Nat × Nat)
    (hb : r.best = some b) (h : process c 2 r true e1 e2 e3 = some (rs, 0)) :
    ∃ pre q, rs = pre ++ [q] ∧ Asks c r true b q ∧ [e1, e2, e3][pre.length]? = some 0 := by
  unfold process at h
  cases hm : metric c r true with
  | none => rw [hm] at h; cases h
  | some m =>
    rw [hm] at h
    simp only [] at h
    have ha := asks_main ok true m (metric_set hm)
    have hnh : nexthop r true = b := by unfold nexthop; rw [hb]; rfl
    rw [hnh] at ha
    split at h
    · split at h
      · obtain ⟨rfl, rfl⟩ := Prod.mk.inj (Option.some.inj h)
        exact ⟨[_, _], _, rfl, ha, rfl⟩
      · rename_i h2
        obtain ⟨_, h3⟩ := Prod.mk.inj (Option.some.inj h)
        exact absurd h3 h2
    · split at h
      · rename_i h2; exact absurd h2 (by simp)
      · split at h
        · split at h
          · obtain ⟨rfl, rfl⟩ := Prod.mk.inj (Option.some.inj h)
            exact ⟨[_, _], _, rfl, ha, rfl⟩
          · rename_i h2
            obtain ⟨_, h3⟩ := Prod.mk.inj (Option.some.inj h)
            exact absurd h3 h2
        · obtain ⟨rfl, rfl⟩ := Prod.mk.inj (Option.some.inj h)
          exact ⟨[], _, rfl, ha, rfl⟩

/-- If deleting a route is reported as successful, then the kernel was asked to delete exactly the
route that was installed, and answered with success or with "no such route". -/
theorem C79_delete_acknowledged (c : Cfg) (r : Rt) (ok : Ok4 c r) (e1 e2 e3 : Int) (rs : List Req)
    (h : process c 2 r false e1 e2 e3 = some (rs, 0)) :
    ∃ pre q, rs = pre ++ [q] ∧ Asks c r false r.inst q ∧
      ([e1, e2, e3][pre.length]? = some 0 ∨ (pre = [] ∧ e1 = 3)) := by
  unfold process at h
  cases hm : metric c r false with
  | none => rw [hm] at h; cases h
  | some m =>
    rw [hm] at h
    simp only [] at h
    have ha := asks_main ok false m (metric_set hm)
    have hnh : nexthop r false = r.inst := by unfold nexthop; cases r.best <;> rfl
    rw [hnh] at ha
    split at h
    · rename_i h2; exact absurd h2 (by simp)
    · split at h
      · rename_i h2
        obtain ⟨rfl, _⟩ := Prod.mk.inj (Option.some.inj h)
        exact ⟨[], _, rfl, ha, Or.inr ⟨rfl, by simpa using h2⟩⟩
      · split at h
        · split at h
          · obtain ⟨rfl, rfl⟩ := Prod.mk.inj (Option.some.inj h)
            exact ⟨[_, _], _, rfl, ha, Or.inl rfl⟩
          · rename_i h2
            obtain ⟨_, h3⟩ := Prod.mk.inj (Option.some.inj h)
            exact absurd h3 h2
        · obtain ⟨rfl, rfl⟩ := Prod.mk.inj (Option.some.inj h)
          exact ⟨[], _, rfl, ha, Or.inl rfl⟩

/-- Whatever the kernel answers, no more than three requests are made, the first one is for the
route itself, and the reported value is the answer to the last one, except that "no such route"
counts as success for a deletion. -/
theorem C79_bounded (c : Cfg) (f : Nat) (r : Rt) (set : Bool) (e1 e2 e3 x : Int) (rs : List Req)
    (h : process c f r set e1 e2 e3 = some (rs, x)) :
    rs.length ≤ 3 ∧ (∃ m, rs.head? = some (mainReq c f r set m)) ∧
      ([e1, e2, e3][rs.length - 1]? = some x ∨ (set = false ∧ rs.length = 1 ∧ e1 = 3 ∧ x = 0)) := by
  unfold process at h
  cases hm : metric c r set with
  | none => rw [hm] at h; cases h
  | some m =>
    rw [hm] at h
    simp only [] at h
    split at h
    · split at h <;> obtain ⟨rfl, rfl⟩ := Prod.mk.inj (Option.some.inj h) <;> exact ⟨by simp, ⟨m, rfl⟩, Or.inl rfl⟩
    · split at h
      · rename_i h2
        obtain ⟨rfl, rfl⟩ := Prod.mk.inj (Option.some.inj h)
        exact ⟨by simp, ⟨m, rfl⟩, Or.inr ⟨by simp at h2; exact h2.1, rfl, by simp at h2; exact h2.2, rfl⟩⟩
      · split at h
        · split at h <;> obtain ⟨rfl, rfl⟩ := Prod.mk.inj (Option.some.inj h) <;> exact ⟨by simp, ⟨m, rfl⟩, Or.inl rfl⟩
        · obtain ⟨rfl, rfl⟩ := Prod.mk.inj (Option.some.inj h); exact ⟨by simp, ⟨m, rfl⟩, Or.inl rfl⟩

/-- Deleting a route can add one: if the kernel answers the deletion of a route over a gateway with
"network unreachable" under a flat metric, a host route to the gateway is set, and it stays. -/
theorem C79_delete_adds (c : Cfg) (r : Rt) (f : Nat) (e3 : Int) (hf : c.flat = true) (hh : hostRoute c r false = false) :
    ∃ q0 q q1, process c f r false 101 0 e3 = some ([q0, q, q1], e3) ∧
      q.set = true ∧ q.dst = r.inst.1 ∧ q.plen = c.ipsize * 8 ∧ q.table = c.table := by
  have hnh : nexthop r false = r.inst := by unfold nexthop; cases r.best <;> rfl
  refine ⟨mainReq c f r false (wantedMetric c r 0), gatewayReq c f r false (wantedMetric c r 0),
    mainReq c f r false (wantedMetric c r 0), ?_, rfl, congrArg Prod.fst hnh, rfl, rfl⟩
  have hm : metric c r false = some (wantedMetric c r 0) := by
    unfold metric wantedMetric
    rw [hf]
    cases c.smartGw <;> cases r.inetgw <;> simp
  unfold process
  rw [hm]
  simp only [hh, hf]
  rfl

/-- When the kernel reports that a similar route exists, olsrd asks it to delete the similar one,
"going over another gateway".  For an IPv4 host route that request names the destination itself as
gateway, so it does not ask for the deletion of a route over another gateway. -/
theorem C79_fuzzy_deletion_names_gateway (c : Cfg) (r : Rt) (ok : Ok4 c r) (b : List Nat × Nat × Nat) (hb : r.best = some b)
    (hp : r.plen = 32) (e2 e3 : Int) :
    ∃ q0 q rest x m v, process c 2 r true 17 e2 e3 = some (q0 :: q :: rest, x) ∧ q.set = false ∧
      route q = some m ∧ kernelRoute (sent m) = some v ∧ v.type = 25 ∧ v.dst = some (r.dst.take 4) ∧ v.oif = none ∧
      v.gw = some (r.dst.take 4) := by
  have hm : ∃ m, metric c r true = some m := by
    unfold metric; rw [hb]; cases c.flat <;> exact ⟨_, rfl⟩
  obtain ⟨m, hm⟩ := hm
  have hq : Ok (fuzzyReq c 2 r) := by
    refine ⟨Or.inl rfl, ?_, by show (4 : Nat) < _; omega, by show (0 : Nat) < _; omega, by show (0 : Nat) < _; omega,
      by show (0 : Int) < _; omega, by show (255 : Nat) < _; omega, fun s h => (by cases h), fun g h => (by cases h), ok.dst, ok.plen⟩
    have := ok.table; have := ok.tableDefault
    show (if r.inetgw then c.tableDefault else c.table) < _
    split <;> omega
  have ht : (fuzzyReq c 2 r).table < 256 := by
    have := ok.table; have := ok.tableDefault
    show (if r.inetgw then c.tableDefault else c.table) < _
    split <;> omega
  obtain ⟨bs, h1, h2⟩ := C57_route_partial _ hq ht (Or.inl rfl)
  have hbits : bits (fuzzyReq c 2 r) = 32 := if_pos rfl
  have hg : (wanted (fuzzyReq c 2 r)).gw = some (r.dst.take 4) := by
    show (if r.plen = bits (fuzzyReq c 2 r) then some (r.dst.take (bits (fuzzyReq c 2 r) / 8)) else none) = _
    rw [hbits, if_pos hp]
  have hd : (wanted (fuzzyReq c 2 r)).dst = some (r.dst.take 4) := by
    show some (r.dst.take (bits (fuzzyReq c 2 r) / 8)) = _
    rw [hbits]
  by_cases he : e2 = 0
  · refine ⟨mainReq c 2 r true m, fuzzyReq c 2 r, [mainReq c 2 r true m], e3, bs, _, ?_, rfl, h1, h2, rfl, hd, rfl, hg⟩
    unfold process
    rw [hm]
    simp only [he]
    rfl
  · refine ⟨mainReq c 2 r true m, fuzzyReq c 2 r, [], e2, bs, _, ?_, rfl, h1, h2, rfl, hd, rfl, hg⟩
    unfold process
    rw [hm]
    simp only [he]
    rfl

/-- 10.0.0.7/32 over 10.0.0.1 -/
def exCfg : Cfg := ⟨true, 2, false, 254, 254, 3, 4, none⟩
def exRt : Rt := ⟨[10, 0, 0, 7, 0, 0, 0, 0, 0, 0, 0, 0, 0, 0, 0, 0], 32, false,
  some ([10, 0, 0, 1, 0, 0, 0, 0, 0, 0, 0, 0, 0, 0, 0, 0], 3, 2), ([10, 0, 0, 2, 0, 0, 0, 0, 0, 0, 0, 0, 0, 0, 0, 0], 3, 2)⟩

example : Ok4 exCfg exRt ∧ hostRoute exCfg exRt false = false ∧
    (process exCfg 2 exRt true 0 5 5).map (·.2) = some 0 ∧ (process exCfg 2 exRt false 3 5 5).map (·.2) = some 0 :=
  ⟨⟨rfl, by decide, by decide, by decide, by decide, fun s h => (by cases h), rfl, by decide,
    fun b h => (by cases h; exact ⟨rfl, by decide, by decide⟩), ⟨rfl, by decide, by decide⟩⟩, by decide, by decide, by decide⟩

/-! ## C80: policy rules and addresses -/

/-- what a rule request says: 32 new / 33 delete, family, table, priority, name of the incoming interface -/
structure RuleView where
  type : Nat
  flags : Nat
  family : Nat
  table : Nat
  prio : Option Nat
  iif : Option (List Nat)
deriving DecidableEq, Repr

/-- how the kernel reads a rule request; names end at the first zero byte -/
def kernelRule (b : List Nat) : Option RuleView :=
  if b.length < 28 ∨ num (b.take 4) ≠ b.length then none
  else
    let l := attrs b.length (b.drop 28)
    some ⟨num ((b.drop 4).take 2), num ((b.drop 6).take 2), b.getD 16 0, ((attr l 15).map num).getD (b.getD 20 0),
      (attr l 6).map num, (attr l 3).map (fun n => n.takeWhile (· ≠ 0))⟩

/-- what an address request says: 20 new / 21 delete -/
structure AddrView where
  type : Nat
  flags : Nat
  family : Nat
  plen : Nat
  index : Nat
  ip : Option (List Nat)
  label : Option (List Nat)
deriving DecidableEq, Repr

/-- how the kernel reads an address request -/
def kernelAddr (b : List Nat) : Option AddrView :=
  if b.length < 24 ∨ num (b.take 4) ≠ b.length then none
  else
    let l := attrs b.length (b.drop 24)
    some ⟨num ((b.drop 4).take 2), num ((b.drop 6).take 2), b.getD 16 0, b.getD 17 0, num ((b.drop 20).take 4),
      attr l 2, (attr l 3).map (fun n => n.takeWhile (· ≠ 0))⟩

private def ruleHead (family table : Nat) (set : Bool) : List Nat :=
  le16 (if set then 32 else 33) ++ le16 1541 ++ [0, 0, 0, 0, 0, 0, 0, 0, family % 256, 0, 0, 0, table % 256, 0, 0, 1, 0, 0, 0, 0]

private theorem rule_start (family table : Nat) (set : Bool) (Z : List Nat) :
    put (put (put (put (put (put (zeros28 ++ Z) 0 (le32 28)) 6 (le16 1541)) 4 (le16 (if set then 32 else 33)))
      16 [family % 256]) 20 [table % 256]) 23 [1] = le32 28 ++ ruleHead family table set ++ [] ++ Z := by
  simp only [ruleHead, zeros28, put, le32, le16, List.cons_append, List.nil_append, List.take_succ_cons, List.take_zero,
    List.drop_succ_cons, List.drop_zero, List.length_cons, List.length_nil, Nat.reduceAdd, List.append_nil]

private theorem takeWhile_name (n : List Nat) (h : ∀ x ∈ n, x ≠ 0) : (n ++ [0]).takeWhile (· ≠ 0) = n := by
  induction n with
  | nil => rfl
  | cons x n ih =>
    rw [List.cons_append, List.takeWhile_cons, if_pos (by simpa using h x (List.mem_cons_self ..)),
      ih (fun y hy => h y (List.mem_cons_of_mem _ hy))]

private theorem att1 (prio : Nat) : Att [(6, le32 prio)] := by
  intro a ha
  rw [List.mem_singleton.1 ha]
  exact ⟨by simp, by simp [le32], by simp [le32]⟩

private theorem rule_closed (family table prio : Nat) (n : Option (List Nat)) (set : Bool) (hn : ∀ x, n = some x → x.length ≤ 90) :
    rule family table prio n set = some (memL (ruleHead family table set)
      (match n with
       | none => [] ++ [(6, le32 prio)]
       | some n => ([] ++ [(6, le32 prio)]) ++ [(3, n ++ [0])])) := by
  unfold rule
  rw [show (1052 : Nat) = 28 + 1024 from rfl, zeros_split]
  simp only []
  rw [rule_start]
  have a0 : Att [] := fun _ h => (by cases h)
  have : (le32 28 ++ ruleHead family table set ++ [] ++ List.replicate 1024 0) = memL (ruleHead family table set) [] := rfl
  rw [this, addreq_L (by rfl) a0 (by simp) (by simp [le32]), Option.bind_some]
  cases n with
  | none => rfl
  | some n =>
    simp only []
    rw [addreq_L (l := [] ++ [(6, le32 prio)]) (by rfl) (att1 prio) (by simp) (by have := hn n rfl; simp; omega)]

private theorem rule_view (family table prio : Nat) (n : Option (List Nat)) (set : Bool)
    (hp : prio < 4294967296) (hn : ∀ x, n = some x → x.length ≤ 90 ∧ ∀ y ∈ x, y ≠ 0) :
    ∃ m, rule family table prio n set = some m ∧ kernelRule (sent m) =
      some ⟨if set then 32 else 33, 1541, family % 256, table % 256, some prio, n⟩ := by
  refine ⟨_, rule_closed family table prio n set (fun x hx => (hn x hx).1), ?_⟩
  have gen : ∀ (l : List (Nat × List Nat)) (e : Nat × List Nat), (∀ a ∈ l, a.1 < 65536 ∧ a.2.length < 100 ∧ a.2.length % 4 = 0) →
      e.1 < 65536 ∧ e.2.length < 100 → l.length ≤ 3 →
      kernelRule (sent (memL (ruleHead family table set) (l ++ [e]))) =
        some ⟨if set then 32 else 33, 1541, family % 256, ((attr (l ++ [e]) 15).map num).getD (table % 256),
          (attr (l ++ [e]) 6).map num, (attr (l ++ [e]) 3).map (fun n => n.takeWhile (· ≠ 0))⟩ := by
    intro l e hl he hll
    have hfm : (l ++ [e]).flatMap enc = l.flatMap enc ++ enc e := by
      rw [List.flatMap_append, List.flatMap_cons, List.flatMap_nil, List.append_nil]
    have hat : ∀ k, l.length < k → attrs k ((l ++ [e]).flatMap enc) = l ++ [e] := by
      intro k hk
      rw [hfm]
      exact attrs_enc l e k hk (fun a h => ⟨(hl a h).1, by have := hl a h; omega, (hl a h).2.2⟩) ⟨he.1, by omega⟩
    have hlen : ((l ++ [e]).flatMap enc).length < 1000 := by
      have : ∀ l : List (Nat × List Nat), (∀ a ∈ l, a.2.length < 100) → (l.flatMap enc).length ≤ 104 * l.length := by
        intro l
        induction l with
        | nil => intro _; exact Nat.le_refl _
        | cons a l ih =>
          intro h
          have := ih (fun x hx => h x (List.mem_cons_of_mem _ hx))
          have := h a (List.mem_cons_self ..)
          rw [List.flatMap_cons, List.length_append, enc_len, List.length_cons]; omega
      have := this (l ++ [e]) (by
        intro a ha
        rcases List.mem_append.1 ha with ha | ha
        · exact (hl a ha).2.1
        · rw [List.mem_singleton.1 ha]; exact he.2)
      rw [show (l ++ [e]).length = l.length + 1 by simp] at this
      omega
    unfold memL
    rw [sent_mem (by omega) (by rfl)]
    have hat := hat (28 + ((l ++ [e]).flatMap enc).length) (by omega)
    generalize hN : 28 + ((l ++ [e]).flatMap enc).length = N at hat ⊢
    generalize (l ++ [e]).flatMap enc = B at hat hN hlen
    have hbl : (le32 N ++ ruleHead family table set ++ B).length = N := by
      rw [List.length_append]; show 28 + B.length = N; omega
    have hd28 : (le32 N ++ ruleHead family table set ++ B).drop 28 = B := List.drop_left' rfl
    unfold kernelRule
    rw [hbl, hd28, hat]
    have h4 : (le32 N ++ ruleHead family table set ++ B).take 4 = le32 N := rfl
    have h46 : ((le32 N ++ ruleHead family table set ++ B).drop 4).take 2 = le16 (if set then 32 else 33) := rfl
    have h66 : ((le32 N ++ ruleHead family table set ++ B).drop 6).take 2 = le16 1541 := rfl
    rw [h4, h46, h66, le32_num (by omega), le16_num (by split <;> omega), le16_num (by omega), if_neg (by omega)]
    rfl
  have hpn := le32_num hp
  cases n with
  | none =>
    simp only []
    rw [gen [] _ (fun _ h => (by cases h)) ⟨by simp, by simp [le32]⟩ (by simp)]
    simp [attr, hpn]
  | some n =>
    simp only []
    obtain ⟨h1, h2⟩ := hn n rfl
    rw [gen _ _ (by
      intro a ha
      rw [List.nil_append, List.mem_singleton] at ha
      rw [ha]; exact ⟨by simp, by simp [le32], by simp [le32]⟩) ⟨by simp, by simp; omega⟩ (by simp)]
    have := takeWhile_name n h2
    simp only [attr, List.nil_append, List.cons_append, List.reverse_cons, List.reverse_nil, List.find?_cons, hpn, this,
      Option.map_some, Option.map_none, List.find?_nil, Option.getD_none, Nat.reduceBEq]

/-- The kernel reads a rule request as it was meant, for table numbers below 256. -/
theorem C80_rule_partial (family table prio : Nat) (n : Option (List Nat)) (set : Bool) (hf : family < 256)
    (ht : table < 256) (hp : prio < 4294967296) (hn : ∀ x, n = some x → x.length ≤ 90 ∧ ∀ y ∈ x, y ≠ 0) :
    ∃ m, rule family table prio n set = some m ∧
      kernelRule (sent m) = some ⟨if set then 32 else 33, 0x400 + 0x200 + 4 + 1, family, table, some prio, n⟩ := by
  obtain ⟨m, h1, h2⟩ := rule_view family table prio n set hp hn
  refine ⟨m, h1, ?_⟩
  rw [h2, Nat.mod_eq_of_lt hf, Nat.mod_eq_of_lt ht]

example : ∀ x, some [101, 116, 104, 48] = some x → x.length ≤ 90 ∧ ∀ y ∈ x, y ≠ 0 := by
  intro x h; cases h; decide

/-- Larger table numbers are cut to eight bits: the rule is for another table. -/
theorem C80_rule_table_truncated (family table prio : Nat) (n : Option (List Nat)) (set : Bool)
    (ht : 256 ≤ table) (hp : prio < 4294967296) (hn : ∀ x, n = some x → x.length ≤ 90 ∧ ∀ y ∈ x, y ≠ 0) :
    ∃ m v, rule family table prio n set = some m ∧ kernelRule (sent m) = some v ∧ v.table = table % 256 ∧ v.table ≠ table := by
  obtain ⟨m, h1, h2⟩ := rule_view family table prio n set hp hn
  exact ⟨m, _, h1, h2, rfl, by show table % 256 ≠ table; omega⟩

private def zeros24 : List Nat := [0, 0, 0, 0, 0, 0, 0, 0, 0, 0, 0, 0, 0, 0, 0, 0, 0, 0, 0, 0, 0, 0, 0, 0]

private theorem zeros24_split (n : Nat) : List.replicate (24 + n) 0 = zeros24 ++ List.replicate n 0 := by
  rw [← List.replicate_append_replicate]
  exact congrArg (· ++ List.replicate n 0) (show List.replicate 24 0 = zeros24 by decide)

private def ipHead (family plen index : Nat) (create : Bool) : List Nat :=
  le16 (if create then 20 else 21) ++ le16 (if create then 1285 else 5) ++ [0, 0, 0, 0, 0, 0, 0, 0, family % 256, plen, 0, 0] ++ le32 index

private theorem ip_start (family : Nat) (create : Bool) (Z : List Nat) :
    put (put (put (put (zeros24 ++ Z) 0 (le32 24)) 6 (le16 (if create then 1285 else 5))) 4 (le16 (if create then 20 else 21)))
      16 [family % 256] = le32 24 ++ ipHead family 0 0 create ++ [] ++ Z := by
  simp only [ipHead, zeros24, put, le32, le16, List.cons_append, List.nil_append, List.take_succ_cons, List.take_zero,
    List.drop_succ_cons, List.drop_zero, List.length_cons, List.length_nil, Nat.reduceAdd, List.append_nil, Nat.zero_mod, Nat.zero_div]

private theorem ip_end (n family plen index : Nat) (create : Bool) (B : List Nat) (z : Nat) :
    put (put (mem n (ipHead family 0 0 create) B z) 17 [plen]) 20 (le32 index) = mem n (ipHead family plen index create) B z := by
  simp only [mem, ipHead, put, le32, le16, List.cons_append, List.nil_append, List.take_succ_cons, List.take_zero,
    List.drop_succ_cons, List.drop_zero, List.length_cons, List.length_nil, Nat.reduceAdd]

/-- The kernel reads a request to add or remove an address as it was meant, with the full
prefix length. -/
theorem C80_address (ipsize family index : Nat) (ip : List Nat) (label : Option (List Nat)) (create : Bool)
    (hs : ipsize = 4 ∨ ipsize = 16) (hip : ip.length = 16) (hf : family < 256) (hi : index < 4294967296)
    (hn : ∀ x, label = some x → x.length ≤ 90 ∧ ∀ y ∈ x, y ≠ 0) :
    ∃ m, addIp ipsize family index ip label create = some m ∧
      kernelAddr (sent m) = some ⟨if create then 20 else 21, if create then 0x400 + 0x100 + 4 + 1 else 4 + 1, family, ipsize * 8,
        index, some (ip.take ipsize), label⟩ := by
  have hd : (ip.take ipsize).length = ipsize := by rw [List.length_take]; omega
  have gen : ∀ (l : List (Nat × List Nat)) (e : Nat × List Nat), (∀ a ∈ l, a.1 < 65536 ∧ a.2.length < 60000 ∧ a.2.length % 4 = 0) →
      e.1 < 65536 ∧ e.2.length < 60000 → ((l ++ [e]).flatMap enc).length < 1000 → l.length ≤ 3 → ∀ z,
      kernelAddr (sent (mem (24 + ((l ++ [e]).flatMap enc).length) (ipHead family (ipsize * 8) index create) ((l ++ [e]).flatMap enc) z)) =
        some ⟨if create then 20 else 21, if create then 0x400 + 0x100 + 4 + 1 else 4 + 1, family, ipsize * 8, index,
          attr (l ++ [e]) 2, (attr (l ++ [e]) 3).map (fun n => n.takeWhile (· ≠ 0))⟩ := by
    intro l e hl he hlen hll z
    have hfm : (l ++ [e]).flatMap enc = l.flatMap enc ++ enc e := by
      rw [List.flatMap_append, List.flatMap_cons, List.flatMap_nil, List.append_nil]
    have hat : attrs (24 + ((l ++ [e]).flatMap enc).length) ((l ++ [e]).flatMap enc) = l ++ [e] := by
      generalize hk : 24 + ((l ++ [e]).flatMap enc).length = k
      rw [hfm]
      exact attrs_enc l e k (by omega) hl he
    rw [sent_mem (by omega) (by rfl)]
    generalize hN : 24 + ((l ++ [e]).flatMap enc).length = N at hat ⊢
    generalize (l ++ [e]).flatMap enc = B at hat hN hlen
    have hbl : (le32 N ++ ipHead family (ipsize * 8) index create ++ B).length = N := by
      rw [List.length_append]; show 24 + B.length = N; omega
    have hd24 : (le32 N ++ ipHead family (ipsize * 8) index create ++ B).drop 24 = B := List.drop_left' rfl
    unfold kernelAddr
    rw [hbl, hd24, hat]
    have h4 : (le32 N ++ ipHead family (ipsize * 8) index create ++ B).take 4 = le32 N := rfl
    have h46 : ((le32 N ++ ipHead family (ipsize * 8) index create ++ B).drop 4).take 2 = le16 (if create then 20 else 21) := rfl
    have h66 : ((le32 N ++ ipHead family (ipsize * 8) index create ++ B).drop 6).take 2 = le16 (if create then 1285 else 5) := rfl
    have h20 : ((le32 N ++ ipHead family (ipsize * 8) index create ++ B).drop 20).take 4 = le32 index := rfl
    have h16 : (le32 N ++ ipHead family (ipsize * 8) index create ++ B).getD 16 0 = family % 256 := rfl
    have h17 : (le32 N ++ ipHead family (ipsize * 8) index create ++ B).getD 17 0 = ipsize * 8 := rfl
    rw [h4, h46, h66, h20, h16, h17, le32_num (by omega), le32_num hi, le16_num (by split <;> omega), le16_num (by split <;> omega),
      if_neg (by omega), Nat.mod_eq_of_lt hf]
  have hstart : mem 24 (ipHead family 0 0 create) [] 256 = le32 24 ++ ipHead family 0 0 create ++ [] ++ List.replicate 256 0 := rfl
  unfold addIp
  rw [show (280 : Nat) = 24 + 256 from rfl, zeros24_split]
  simp only []
  rw [ip_start, ← hstart, addreq_mem (by omega) (by rfl) (by rfl) (by omega), Option.bind_some, List.nil_append]
  have e1 : 24 + 4 + (ip.take ipsize).length = 24 + (([] ++ [(2, ip.take ipsize)]).flatMap enc).length := by
    rw [List.nil_append, List.flatMap_cons, List.flatMap_nil, List.append_nil, enc_len]; simp only []; omega
  cases label with
  | none =>
    simp only [Option.bind_some]
    rw [ip_end]
    refine ⟨_, rfl, ?_⟩
    have := gen [] (2, ip.take ipsize) (fun _ h => (by cases h)) ⟨by simp, by show (ip.take ipsize).length < 60000; omega⟩ (by omega)
      (by simp) (256 - (4 + (ip.take ipsize).length))
    rw [← e1] at this
    have e2 : ([] ++ [(2, ip.take ipsize)]).flatMap enc = enc (2, ip.take ipsize) := by
      rw [List.nil_append, List.flatMap_cons, List.flatMap_nil, List.append_nil]
    rw [e2] at this
    rw [this]
    simp [attr]
  | some n =>
    obtain ⟨h1, h2⟩ := hn n rfl
    have hnl : (n ++ [0]).length = n.length + 1 := by simp
    simp only []
    rw [addreq_mem (by omega) (by rw [enc_len]; show 4 + 20 + (4 + (ip.take ipsize).length) = _; omega) (by omega) (by omega), Option.bind_some, ip_end]
    refine ⟨_, rfl, ?_⟩
    have e2 : ([(2, ip.take ipsize)] ++ [(3, n ++ [0])]).flatMap enc = enc (2, ip.take ipsize) ++ enc (3, n ++ [0]) := by
      rw [List.flatMap_append, List.flatMap_cons, List.flatMap_nil, List.append_nil, List.flatMap_cons, List.flatMap_nil, List.append_nil]
    have e3 : (([(2, ip.take ipsize)] ++ [(3, n ++ [0])]).flatMap enc).length = 4 + (ip.take ipsize).length + (4 + (n ++ [0]).length) := by
      rw [e2, List.length_append, enc_len, enc_len]
    have := gen [(2, ip.take ipsize)] (3, n ++ [0]) (by
        intro a ha
        rw [List.mem_singleton.1 ha]
        refine ⟨by simp, ?_, ?_⟩ <;> simp only [] <;> omega) ⟨by simp, by simp only []; omega⟩ (by omega)
      (by simp) (256 - (4 + (ip.take ipsize).length) - (4 + (n ++ [0]).length))
    rw [e3, e2] at this
    have e4 : 24 + 4 + (ip.take ipsize).length + 4 + (n ++ [0]).length = 24 + (4 + (ip.take ipsize).length + (4 + (n ++ [0]).length)) := by omega
    rw [e4, this]
    have htw := takeWhile_name n h2
    simp only [attr, List.cons_append, List.nil_append, List.reverse_cons, List.reverse_nil, List.find?_cons, htw,
      Option.map_some, Nat.reduceBEq]

example : kernelAddr (sent ((addIp 4 2 1 [10, 0, 0, 1, 0, 0, 0, 0, 0, 0, 0, 0, 0, 0, 0, 0]
    (some [108, 111, 58, 111, 108, 115, 114]) true).getD [])) =
    some ⟨20, 1285, 2, 32, 1, some [10, 0, 0, 1], some [108, 111, 58, 111, 108, 115, 114]⟩ := by decide +kernel

end Verif.Nl
