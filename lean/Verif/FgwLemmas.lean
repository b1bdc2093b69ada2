import Verif.FgwModel

/-!
# Lemmas on the gateway filter
-/

namespace Verif.Fgw

/-- an entry with address and mask of the right size -/
def EntOk (v6 : Bool) (e : List Nat × List Nat) : Prop := e.1.length = ipsz v6 ∧ e.2.length = ipsz v6

/-- the bytes of the entries -/
def flat : List (List Nat × List Nat) → List Nat
  | [] => []
  | e :: es => e.1 ++ e.2 ++ flat es

theorem ipsz_pos (v6 : Bool) : 0 < ipsz v6 := by unfold ipsz; split <;> omega

theorem flat_append (a b : List (List Nat × List Nat)) : flat (a ++ b) = flat a ++ flat b := by
  induction a with
  | nil => rfl
  | cons e es ih => simp only [List.cons_append, flat, ih, List.append_assoc]

theorem flat_length {v6 : Bool} : ∀ {es : List (List Nat × List Nat)}, (∀ e ∈ es, EntOk v6 e) →
    (flat es).length = 2 * ipsz v6 * es.length
  | [], _ => by simp [flat]
  | e :: es, h => by
    have h1 := h e (List.mem_cons_self ..)
    have h2 := flat_length (fun x hx => h x (List.mem_cons_of_mem _ hx))
    simp only [flat, List.length_append, h1.1, h1.2, h2, List.length_cons, Nat.mul_add]
    omega

theorem bytes_at {m p b r : List Nat} {i n : Nat} (hm : m = p ++ b ++ r) (hp : p.length = i) (hb : b.length = n) :
    bytes m i n = some b := by
  subst hm hp hb
  unfold bytes
  rw [if_pos (by simp)]
  simp

theorem move_at {p e t r : List Nat} {d s n : Nat} (hp : p.length = d) (he : p.length + e.length = s) (hn : t.length = n) :
    move (p ++ (e ++ t) ++ r) d s n = some (p ++ t ++ ((e ++ t).drop t.length ++ r)) := by
  subst hp he hn
  unfold move
  rw [if_pos (by simp; omega)]
  congr 1
  have h1 : (p ++ (e ++ t) ++ r).take p.length = p := by simp
  have h2 : ((p ++ (e ++ t) ++ r).drop (p.length + e.length)).take t.length = t := by
    rw [show p ++ (e ++ t) ++ r = (p ++ e) ++ (t ++ r) by simp, List.drop_append_of_le_length (by simp),
      show (p ++ e).drop (p.length + e.length) = [] from List.drop_eq_nil_of_le (by simp)]
    simp
  have h3 : (p ++ (e ++ t) ++ r).drop (p.length + t.length) = (e ++ t).drop t.length ++ r := by
    rw [List.append_assoc, List.drop_append, List.drop_eq_nil_of_le (by omega), List.nil_append,
      List.drop_append_of_le_length (by simp)]
    congr 2
    omega
  rw [h1, h2, h3]

/-- the header of an HNA message with the size field `n` -/
def hd (vt n : Nat) (orig tl : List Nat) : List Nat := [4, vt] ++ [n / 256 % 256, n % 256] ++ orig ++ tl

theorem hd_length (vt n : Nat) (orig tl : List Nat) : (hd vt n orig tl).length = 4 + orig.length + tl.length := by
  simp [hd]; omega

theorem put16_hd (vt n k : Nat) (orig tl x : List Nat) : put16 (hd vt n orig tl ++ x) 2 k = hd vt k orig tl ++ x := by
  simp [put16, hd]

theorem get16_hd {vt n : Nat} {orig tl x : List Nat} (h : n < 65536) : get16 (hd vt n orig tl ++ x) 2 = some n := by
  unfold get16
  rw [show bytes (hd vt n orig tl ++ x) 2 2 = some [n / 256 % 256, n % 256] from
    bytes_at (p := [4, vt]) (r := orig ++ tl ++ x) (by simp [hd]) rfl rfl]
  simp only []
  congr 1
  omega

theorem ty_hd {vt n : Nat} {orig tl x : List Nat} : bytes (hd vt n orig tl ++ x) 0 1 = some [4] :=
  bytes_at (p := []) (r := [vt] ++ [n / 256 % 256, n % 256] ++ orig ++ tl ++ x) (by simp [hd]) rfl rfl

theorem orig_hd {vt n k : Nat} {orig tl x : List Nat} (h : orig.length = k) :
    bytes (hd vt n orig tl ++ x) 4 k = some orig :=
  bytes_at (p := [4, vt] ++ [n / 256 % 256, n % 256]) (r := tl ++ x) (by simp [hd]) rfl h

/-- what stays -/
def keep (v6 : Bool) (es : List (List Nat × List Nat)) : List (List Nat × List Nat) := es.filter (fun e => !isGw v6 e.1 e.2)

theorem loop_end {v6 : Bool} {f : Nat} {m : List Nat} {c h e : Nat} {l : Int} {s : Nat} (hc : ¬ c < e) :
    loop v6 (f + 1) m c h e l s = some (true, m) := by
  unfold loop; rw [if_neg hc]

theorem loop_keep {v6 : Bool} {f : Nat} {m a k : List Nat} {c h e : Nat} {l : Int} {s : Nat} (hc : c < e)
    (ha : bytes m c (ipsz v6) = some a) (hk : bytes m (c + ipsz v6) (ipsz v6) = some k) (hg : isGw v6 a k = false) :
    loop v6 (f + 1) m c h e l s = loop v6 f m (c + 2 * ipsz v6) (h + 2 * ipsz v6) e l s := by
  conv => lhs; unfold loop
  rw [if_pos hc, ha, hk]
  simp only []
  rw [if_neg (by rw [hg]; decide)]

theorem loop_drop {v6 : Bool} {f : Nat} {m m1 a k : List Nat} {c h e : Nat} {l : Int} {s : Nat} (hc : c < e)
    (ha : bytes m c (ipsz v6) = some a) (hk : bytes m (c + ipsz v6) (ipsz v6) = some k) (hg : isGw v6 a k = true)
    (hl : 0 < l - 2 * (ipsz v6 : Int)) (hle : c + 2 * ipsz v6 ≤ e)
    (hm : move m h (c + 2 * ipsz v6) (e - (c + 2 * ipsz v6)) = some m1) :
    loop v6 (f + 1) m c h e l s =
      loop v6 f (put16 m1 2 (s - 2 * ipsz v6)) h h (e - 2 * ipsz v6) (l - 2 * (ipsz v6 : Int)) (s - 2 * ipsz v6) := by
  conv => lhs; unfold loop
  rw [if_pos hc, ha, hk]
  simp only []
  rw [if_pos hg, if_pos hl, if_pos hle, hm]

theorem loop_last {v6 : Bool} {f : Nat} {m a k : List Nat} {c h e : Nat} {l : Int} {s : Nat} (hc : c < e)
    (ha : bytes m c (ipsz v6) = some a) (hk : bytes m (c + ipsz v6) (ipsz v6) = some k) (hg : isGw v6 a k = true)
    (hl : ¬ 0 < l - 2 * (ipsz v6 : Int)) :
    loop v6 (f + 1) m c h e l s = some (false, m) := by
  unfold loop
  rw [if_pos hc, ha, hk]
  simp only []
  rw [if_pos hg, if_neg hl]

/-- the loop on a message whose entries before `curr` are `kept` and which has something to keep -/
theorem loop_spec {v6 : Bool} {vt : Nat} {orig tl : List Nat} (ho : orig.length = ipsz v6) (ht : tl.length = 4) :
    ∀ (todo kept : List (List Nat × List Nat)) (r : List Nat) (f : Nat),
      (∀ e ∈ kept, EntOk v6 e) → (∀ e ∈ todo, EntOk v6 e) → (kept ≠ [] ∨ keep v6 todo ≠ [] ∨ todo = []) → todo.length < f →
      ∃ j, j.length = 2 * ipsz v6 * (todo.length - (keep v6 todo).length) ∧
        loop v6 f (hd vt (8 + ipsz v6 + 2 * ipsz v6 * (kept.length + todo.length)) orig tl ++ flat kept ++ flat todo ++ r)
          (8 + ipsz v6 + 2 * ipsz v6 * kept.length) (8 + ipsz v6 + 2 * ipsz v6 * kept.length)
          (8 + ipsz v6 + 2 * ipsz v6 * (kept.length + todo.length))
          ((2 * ipsz v6 * (kept.length + todo.length) : Nat) : Int)
          (8 + ipsz v6 + 2 * ipsz v6 * (kept.length + todo.length)) =
        some (true, hd vt (8 + ipsz v6 + 2 * ipsz v6 * (kept.length + (keep v6 todo).length)) orig tl ++ flat kept ++
          flat (keep v6 todo) ++ j ++ r)
  | [], kept, r, f, _, _, _, hf => by
    obtain ⟨f, rfl⟩ : ∃ g, f = g + 1 := ⟨f - 1, by simp at hf; omega⟩
    refine ⟨[], by simp [keep], ?_⟩
    rw [loop_end (by simp)]
    simp [keep, flat]
  | e :: es, kept, r, f, hk, ht', hne, hf => by
    obtain ⟨f, rfl⟩ : ∃ g, f = g + 1 := ⟨f - 1, by simp at hf; omega⟩
    have hes : ∀ x ∈ es, EntOk v6 x := fun x hx => ht' x (List.mem_cons_of_mem _ hx)
    have he : EntOk v6 e := ht' e (List.mem_cons_self ..)
    have hkl := flat_length hk
    have hel := flat_length hes
    have hpos := ipsz_pos v6
    have hH : ∀ n, (hd vt n orig tl).length = 8 + ipsz v6 := fun n => by rw [hd_length, ho, ht]; omega
    obtain ⟨w, hw⟩ : ∃ w, w = 2 * ipsz v6 := ⟨_, rfl⟩
    have hlen : (e :: es).length = es.length + 1 := rfl
    rw [hlen] at hf ⊢
    have hmul : 2 * ipsz v6 * (kept.length + (es.length + 1)) = 2 * ipsz v6 * kept.length + 2 * ipsz v6 * es.length + 2 * ipsz v6 := by
      rw [Nat.mul_add, Nat.mul_add]; omega
    have hmulE : 2 * ipsz v6 * (kept.length + es.length) = 2 * ipsz v6 * kept.length + 2 * ipsz v6 * es.length := by
      rw [Nat.mul_add]
    have hc : 8 + ipsz v6 + 2 * ipsz v6 * kept.length < 8 + ipsz v6 + 2 * ipsz v6 * (kept.length + (es.length + 1)) := by omega
    obtain ⟨N, hN⟩ : ∃ N, N = 8 + ipsz v6 + 2 * ipsz v6 * (kept.length + (es.length + 1)) := ⟨_, rfl⟩
    have hp : (hd vt N orig tl ++ flat kept).length = 8 + ipsz v6 + 2 * ipsz v6 * kept.length := by
      rw [List.length_append, hH, hkl]
    have ha : bytes (hd vt N orig tl ++ flat kept ++ flat (e :: es) ++ r) (8 + ipsz v6 + 2 * ipsz v6 * kept.length) (ipsz v6) = some e.1 :=
      bytes_at (p := hd vt N orig tl ++ flat kept) (r := e.2 ++ flat es ++ r) (by simp [flat]) hp he.1
    have hb : bytes (hd vt N orig tl ++ flat kept ++ flat (e :: es) ++ r) (8 + ipsz v6 + 2 * ipsz v6 * kept.length + ipsz v6) (ipsz v6) = some e.2 :=
      bytes_at (p := hd vt N orig tl ++ flat kept ++ e.1) (r := flat es ++ r) (by simp [flat]) (by rw [List.length_append, hp, he.1]) he.2
    rw [← hN]
    rw [← hN] at hc
    by_cases hg : isGw v6 e.1 e.2 = true
    · have hkeep : keep v6 (e :: es) = keep v6 es := by simp [keep, hg]
      rw [hkeep]
      rw [hkeep] at hne
      have hne' : kept ≠ [] ∨ keep v6 es ≠ [] ∨ es = [] := by
        rcases hne with h | h | h
        · exact Or.inl h
        · exact Or.inr (Or.inl h)
        · cases h
      have hpl : 0 < 2 * ipsz v6 * kept.length + 2 * ipsz v6 * es.length := by
        rcases hne with h | h | h
        · have : 0 < kept.length := List.length_pos_iff.2 h
          have := Nat.mul_pos (show 0 < 2 * ipsz v6 by omega) this
          omega
        · have : es ≠ [] := by intro h'; subst h'; exact h rfl
          have : 0 < es.length := List.length_pos_iff.2 this
          have := Nat.mul_pos (show 0 < 2 * ipsz v6 by omega) this
          omega
        · cases h
      obtain ⟨j0, hj0, hmv⟩ : ∃ j0, j0.length = 2 * ipsz v6 ∧
          move (hd vt N orig tl ++ flat kept ++ flat (e :: es) ++ r) (8 + ipsz v6 + 2 * ipsz v6 * kept.length)
            (8 + ipsz v6 + 2 * ipsz v6 * kept.length + 2 * ipsz v6) (N - (8 + ipsz v6 + 2 * ipsz v6 * kept.length + 2 * ipsz v6)) =
          some (hd vt N orig tl ++ flat kept ++ flat es ++ (j0 ++ r)) := by
        refine ⟨(e.1 ++ e.2 ++ flat es).drop (flat es).length, ?_, ?_⟩
        · simp only [List.length_drop, List.length_append, he.1, he.2]; omega
        · exact move_at (p := hd vt N orig tl ++ flat kept) (e := e.1 ++ e.2) (t := flat es) hp
            (by rw [hp, List.length_append, he.1, he.2]; omega) (by omega)
      obtain ⟨j, hj, hl⟩ := loop_spec ho ht es kept (j0 ++ r) f hk hes hne' (by omega)
      refine ⟨j ++ j0, ?_, ?_⟩
      · have hle : (keep v6 es).length ≤ es.length := List.length_filter_le ..
        rw [List.length_append, hj, hj0]
        rw [show es.length + 1 - (keep v6 es).length = (es.length - (keep v6 es).length) + 1 by omega, Nat.mul_add]
        omega
      · have hNs : N - 2 * ipsz v6 = 8 + ipsz v6 + 2 * ipsz v6 * (kept.length + es.length) := by omega
        rw [loop_drop hc ha hb hg (by omega) (by omega) hmv]
        rw [hNs, show ((2 * ipsz v6 * (kept.length + (es.length + 1)) : Nat) : Int) - 2 * (ipsz v6 : Int) =
          ((2 * ipsz v6 * (kept.length + es.length) : Nat) : Int) by omega]
        rw [show hd vt N orig tl ++ flat kept ++ flat es ++ (j0 ++ r) = hd vt N orig tl ++ (flat kept ++ flat es ++ (j0 ++ r)) by simp,
          put16_hd, show ∀ n, hd vt n orig tl ++ (flat kept ++ flat es ++ (j0 ++ r)) = hd vt n orig tl ++ flat kept ++ flat es ++ (j0 ++ r) by
            intro n; simp, hl]
        simp
    · have hg' : isGw v6 e.1 e.2 = false := by cases h : isGw v6 e.1 e.2 <;> simp_all
      have hkeep : keep v6 (e :: es) = e :: keep v6 es := by simp [keep, hg']
      rw [hkeep]
      obtain ⟨j, hj, hl⟩ := loop_spec ho ht es (kept ++ [e]) r f
        (by intro x hx; rcases List.mem_append.1 hx with h | h
            · exact hk x h
            · rw [List.mem_singleton.1 h]; exact he) hes (Or.inl (by simp)) (by omega)
      refine ⟨j, by rw [hj]; congr 1; simp, ?_⟩
      rw [loop_keep hc ha hb hg']
      have e1 : (kept ++ [e]).length = kept.length + 1 := by simp
      have e2 : 2 * ipsz v6 * (kept.length + 1) = 2 * ipsz v6 * kept.length + 2 * ipsz v6 := by rw [Nat.mul_add]; omega
      have e3 : kept.length + 1 + es.length = kept.length + (es.length + 1) := by omega
      have e4 : flat (kept ++ [e]) = flat kept ++ (e.1 ++ e.2) := by rw [flat_append]; simp [flat]
      rw [e1, e2, e3, e4, ← hN] at hl
      rw [show (e :: keep v6 es).length = (keep v6 es).length + 1 from rfl,
        show kept.length + ((keep v6 es).length + 1) = kept.length + 1 + (keep v6 es).length by omega]
      rw [show flat (e :: es) = (e.1 ++ e.2) ++ flat es from rfl, show flat (e :: keep v6 es) = (e.1 ++ e.2) ++ flat (keep v6 es) from rfl]
      rw [show 8 + ipsz v6 + 2 * ipsz v6 * kept.length + 2 * ipsz v6 = 8 + ipsz v6 + (2 * ipsz v6 * kept.length + 2 * ipsz v6) by omega]
      simp only [List.append_assoc] at hl ⊢
      exact hl

/-- the loop on a message that holds gateways only: the last one stays -/
theorem loop_all {v6 : Bool} {vt : Nat} {orig tl : List Nat} (ho : orig.length = ipsz v6) (ht : tl.length = 4)
    (last : List Nat × List Nat) (hlo : EntOk v6 last) (hlg : isGw v6 last.1 last.2 = true) :
    ∀ (todo : List (List Nat × List Nat)) (r : List Nat) (f : Nat),
      (∀ e ∈ todo, EntOk v6 e) → (∀ e ∈ todo, isGw v6 e.1 e.2 = true) → todo.length + 1 < f →
      ∃ j, j.length = 2 * ipsz v6 * todo.length ∧
        loop v6 f (hd vt (8 + ipsz v6 + 2 * ipsz v6 * (todo.length + 1)) orig tl ++ flat (todo ++ [last]) ++ r)
          (8 + ipsz v6) (8 + ipsz v6) (8 + ipsz v6 + 2 * ipsz v6 * (todo.length + 1))
          ((2 * ipsz v6 * (todo.length + 1) : Nat) : Int) (8 + ipsz v6 + 2 * ipsz v6 * (todo.length + 1)) =
        some (false, hd vt (8 + ipsz v6 + 2 * ipsz v6) orig tl ++ flat [last] ++ j ++ r)
  | [], r, f, _, _, hf => by
    obtain ⟨f, rfl⟩ : ∃ g, f = g + 1 := ⟨f - 1, by simp at hf; omega⟩
    have hpos := ipsz_pos v6
    refine ⟨[], by simp, ?_⟩
    have hp : ∀ n, (hd vt n orig tl).length = 8 + ipsz v6 := fun n => by rw [hd_length, ho, ht]; omega
    simp only [List.nil_append, List.length_nil, Nat.zero_add, Nat.mul_one, List.append_nil]
    obtain ⟨N, hN⟩ : ∃ N, N = 8 + ipsz v6 + 2 * ipsz v6 := ⟨_, rfl⟩
    rw [← hN]
    exact loop_last (by omega)
      (bytes_at (p := hd vt N orig tl) (r := last.2 ++ r) (by simp [flat]) (hp _) hlo.1)
      (bytes_at (p := hd vt N orig tl ++ last.1) (r := r) (by simp [flat]) (by rw [List.length_append, hp, hlo.1]) hlo.2)
      hlg (by omega)
  | e :: es, r, f, hes', hg', hf => by
    obtain ⟨f, rfl⟩ : ∃ g, f = g + 1 := ⟨f - 1, by simp at hf; omega⟩
    have hpos := ipsz_pos v6
    have he : EntOk v6 e := hes' e (List.mem_cons_self ..)
    have hes : ∀ x ∈ es, EntOk v6 x := fun x hx => hes' x (List.mem_cons_of_mem _ hx)
    have hall : ∀ x ∈ es ++ [last], EntOk v6 x := by
      intro x hx; rcases List.mem_append.1 hx with h | h
      · exact hes x h
      · rw [List.mem_singleton.1 h]; exact hlo
    have hel := flat_length hall
    have hg := hg' e (List.mem_cons_self ..)
    have hp : ∀ n, (hd vt n orig tl).length = 8 + ipsz v6 := fun n => by rw [hd_length, ho, ht]; omega
    have hlen : (e :: es).length = es.length + 1 := rfl
    have hlen2 : (es ++ [last]).length = es.length + 1 := by simp
    rw [hlen] at hf ⊢
    rw [hlen2] at hel
    have hmul : 2 * ipsz v6 * (es.length + 1 + 1) = 2 * ipsz v6 * (es.length + 1) + 2 * ipsz v6 := by
      rw [Nat.mul_add _ (es.length + 1)]; omega
    have hmul2 : 2 * ipsz v6 * (es.length + 1) = 2 * ipsz v6 * es.length + 2 * ipsz v6 := by
      rw [Nat.mul_add]; omega
    obtain ⟨N, hN⟩ : ∃ N, N = 8 + ipsz v6 + 2 * ipsz v6 * (es.length + 1 + 1) := ⟨_, rfl⟩
    rw [← hN]
    have ha : bytes (hd vt N orig tl ++ flat (e :: es ++ [last]) ++ r) (8 + ipsz v6) (ipsz v6) = some e.1 :=
      bytes_at (p := hd vt N orig tl) (r := e.2 ++ flat (es ++ [last]) ++ r) (by simp [flat]) (hp _) he.1
    have hb : bytes (hd vt N orig tl ++ flat (e :: es ++ [last]) ++ r) (8 + ipsz v6 + ipsz v6) (ipsz v6) = some e.2 :=
      bytes_at (p := hd vt N orig tl ++ e.1) (r := flat (es ++ [last]) ++ r) (by simp [flat])
        (by rw [List.length_append, hp, he.1]) he.2
    obtain ⟨j0, hj0, hmv⟩ : ∃ j0, j0.length = 2 * ipsz v6 ∧
        move (hd vt N orig tl ++ flat (e :: es ++ [last]) ++ r) (8 + ipsz v6)
          (8 + ipsz v6 + 2 * ipsz v6) (N - (8 + ipsz v6 + 2 * ipsz v6)) =
        some (hd vt N orig tl ++ flat (es ++ [last]) ++ (j0 ++ r)) := by
      refine ⟨(e.1 ++ e.2 ++ flat (es ++ [last])).drop (flat (es ++ [last])).length, ?_, ?_⟩
      · simp only [List.length_drop, List.length_append, he.1, he.2]; omega
      · exact move_at (p := hd vt N orig tl) (e := e.1 ++ e.2) (t := flat (es ++ [last])) (hp _)
          (by rw [hp, List.length_append, he.1, he.2]; omega) (by omega)
    obtain ⟨j, hj, hl⟩ := loop_all ho ht last hlo hlg es (j0 ++ r) f hes (fun x hx => hg' x (List.mem_cons_of_mem _ hx)) (by omega)
    refine ⟨j ++ j0, by rw [List.length_append, hj, hj0]; omega, ?_⟩
    rw [loop_drop (by omega) ha hb hg (by omega) (by omega) hmv]
    rw [show N - 2 * ipsz v6 = 8 + ipsz v6 + 2 * ipsz v6 * (es.length + 1) by omega,
      show ((2 * ipsz v6 * (es.length + 1 + 1) : Nat) : Int) - 2 * (ipsz v6 : Int) = ((2 * ipsz v6 * (es.length + 1) : Nat) : Int) by omega]
    rw [show hd vt N orig tl ++ flat (es ++ [last]) ++ (j0 ++ r) = hd vt N orig tl ++ (flat (es ++ [last]) ++ (j0 ++ r)) by simp,
      put16_hd, show ∀ n, hd vt n orig tl ++ (flat (es ++ [last]) ++ (j0 ++ r)) = hd vt n orig tl ++ flat (es ++ [last]) ++ (j0 ++ r) by
        intro n; simp, hl]
    simp

/-- reading the entries -/
theorem readLoop_spec {v6 : Bool} : ∀ (es : List (List Nat × List Nat)) (p r : List Nat) (f : Nat),
    (∀ e ∈ es, EntOk v6 e) → es.length < f →
    readLoop v6 f (p ++ flat es ++ r) p.length (p.length + 2 * ipsz v6 * es.length) = some es
  | [], p, r, f, _, hf => by
    obtain ⟨f, rfl⟩ : ∃ g, f = g + 1 := ⟨f - 1, by simp at hf; omega⟩
    unfold readLoop; rw [if_neg (by simp)]
  | e :: es, p, r, f, h, hf => by
    obtain ⟨f, rfl⟩ : ∃ g, f = g + 1 := ⟨f - 1, by simp at hf; omega⟩
    have he : EntOk v6 e := h e (List.mem_cons_self ..)
    have hpos := ipsz_pos v6
    have hmul : 2 * ipsz v6 * (es.length + 1) = 2 * ipsz v6 * es.length + 2 * ipsz v6 := by
      rw [Nat.mul_add]; omega
    have hr := readLoop_spec es (p ++ (e.1 ++ e.2)) r f (fun x hx => h x (List.mem_cons_of_mem _ hx))
      (by simp at hf; omega)
    rw [show (p ++ (e.1 ++ e.2)).length = p.length + 2 * ipsz v6 by simp [he.1, he.2]; omega] at hr
    unfold readLoop
    rw [show (e :: es).length = es.length + 1 from rfl, if_pos (by omega),
      bytes_at (b := e.1) (p := p) (r := e.2 ++ flat es ++ r) (by simp [flat]) rfl he.1,
      bytes_at (b := e.2) (p := p ++ e.1) (r := flat es ++ r) (by simp [flat]) (by rw [List.length_append, he.1]) he.2]
    simp only []
    rw [show p ++ flat (e :: es) ++ r = p ++ (e.1 ++ e.2) ++ flat es ++ r by simp [flat],
      show p.length + 2 * ipsz v6 * (es.length + 1) = p.length + 2 * ipsz v6 + 2 * ipsz v6 * es.length by omega, hr]
    rfl

end Verif.Fgw
