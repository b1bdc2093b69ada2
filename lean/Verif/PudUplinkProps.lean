import Verif.PudUplinkModel

/-!
# C143: the cluster leader is the fastest gateway

The specification: a candidate can be reached, has both speeds, and is a current gateway or offers the
kind of access that the node asks for.  A candidate is better than another if the sum of its speeds is greater, or if they
are equal and its address is lower.
-/

namespace Verif.PudUplink

/-- The gateways to choose from. -/
def Candidate (e : Env) (g : Gw) : Prop :=
  (∃ c, g.cost = some c ∧ c < 4294967295) ∧ 0 < g.up ∧ 0 < g.down ∧
  (e.cur4 = some g.addr ∨ e.cur6 = some g.addr ∨
    (g.ipv4 = true ∧ (e.v6 = false ∨ e.niit = true) ∧ (e.allowNat = true ∨ g.nat = false)) ∨
    (g.ipv6 = true ∧ e.v6 = true))

/-- Better, for an order of the addresses. -/
def Better (lt : Addr → Addr → Prop) (g h : Gw) : Prop :=
  h.up + h.down < g.up + g.down ∨ (g.up + g.down = h.up + h.down ∧ lt g.addr h.addr)

/-- The order of the addresses that the node uses: as words in memory for IPv4, byte by byte for IPv6. -/
def order (v6 : Bool) (a b : Addr) : Prop := if v6 then a < b else word a < word b

/-- The speeds of the entries come from messages and are at most 320000000 each (gateway.c 211-229). -/
def Speeds (gs : List Gw) : Prop := ∀ g ∈ gs, g.up + g.down < 2 ^ 32

private theorem less6_iff : ∀ (a b : Addr), less6 a b = true ↔ a < b
  | [], [] => by simp [less6]
  | [], _ :: _ => by simp [less6]
  | _ :: _, [] => by simp [less6]
  | a :: as, b :: bs => by
    unfold less6
    rw [List.cons_lt_cons_iff, ← less6_iff as bs]
    by_cases h1 : a < b
    · rw [if_pos h1]; simp [h1]
    · rw [if_neg h1]
      by_cases h2 : b < a
      · rw [if_pos h2]; simp [h1]; omega
      · rw [if_neg h2]
        have : a = b := by omega
        simp [this]

private theorem candidate_iff (e : Env) (g : Gw) :
    Candidate e g ↔ skip g = false ∧ (eval4 e g || eval6 e g) = true := by
  unfold Candidate skip eval4 eval6 broken
  cases g.cost with
  | none => simp
  | some c =>
    simp only [Option.some.injEq, exists_eq_left', Bool.or_eq_false_iff, decide_eq_false_iff_not, beq_eq_false_iff_ne]
    by_cases h1 : e.cur4 = some g.addr <;> by_cases h2 : e.cur6 = some g.addr <;>
      cases g.ipv4 <;> cases e.v6 <;> cases e.niit <;> cases e.allowNat <;> cases g.nat <;> cases g.ipv6 <;>
      simp_all <;> omega

private theorem order_trans (v6 : Bool) {a b c : Addr} (h1 : order v6 a b) (h2 : order v6 b c) : order v6 a c := by
  unfold order at *
  cases v6 with
  | false => simp at *; omega
  | true => simp at *; exact List.lt_trans h1 h2

private theorem better_trans (v6 : Bool) {a b c : Gw} (h1 : Better (order v6) a b) (h2 : Better (order v6) b c) :
    Better (order v6) a c := by
  unfold Better at *
  rcases h1 with h1 | ⟨h1, h1'⟩ <;> rcases h2 with h2 | ⟨h2, h2'⟩
  · left; omega
  · left; omega
  · left; omega
  · right; exact ⟨by omega, order_trans v6 h1' h2'⟩

/-- The node compares the addresses in the same way for all gateways. -/
def Uniform (e : Env) (gs : List Gw) : Prop :=
  (e.v6 = false ∧ e.cur6 = none) ∨
  (e.v6 = true ∧ e.cur4 = none ∧ (e.niit = false ∨ ∀ g ∈ gs, g.ipv4 = false))

private theorem lower_iff {e : Env} {gs : List Gw} (hu : Uniform e gs) {g : Gw} (hg : g ∈ gs)
    (hc : (eval4 e g || eval6 e g) = true) (b : Gw) : lower e g b = true ↔ order e.v6 g.addr b.addr := by
  unfold lower order
  rcases hu with ⟨h1, h2⟩ | ⟨h1, h2, h3⟩
  · have h6 : eval6 e g = false := by unfold eval6; rw [h2, h1]; simp
    rw [h6, Bool.or_false] at hc
    rw [if_pos hc, h1]
    simp [less4]
  · have h4 : eval4 e g = false := by
      unfold eval4; rw [h2, h1]
      rcases h3 with h3 | h3
      · rw [h3]; simp
      · rw [h3 g hg]; simp
    rw [h4, if_neg (by simp), less6_iff, h1]
    simp

private theorem consider_better {e : Env} {gs : List Gw} (hu : Uniform e gs) (hs : Speeds gs) {b g : Gw}
    (hb : b ∈ gs) (hg : g ∈ gs) (hk : skip g = false) (hc : (eval4 e g || eval6 e g) = true) :
    (Better (order e.v6) g b ∧ consider e (some b) g = some g) ∨
    (¬ Better (order e.v6) g b ∧ consider e (some b) g = some b) := by
  have s1 : speed g = g.up + g.down := Nat.mod_eq_of_lt (hs g hg)
  have s2 : speed b = b.up + b.down := Nat.mod_eq_of_lt (hs b hb)
  have hl := lower_iff hu hg hc b
  unfold consider
  rw [if_neg (by rw [hk]; simp), if_pos hc]
  simp only []
  rw [s1, s2]
  by_cases h1 : g.up + g.down > b.up + b.down
  · left; rw [if_pos h1]; exact ⟨Or.inl h1, rfl⟩
  · rw [if_neg h1]
    by_cases h2 : g.up + g.down = b.up + b.down
    · rw [if_pos h2]
      by_cases h3 : lower e g b = true
      · left; rw [if_pos h3]; exact ⟨Or.inr ⟨h2, hl.mp h3⟩, rfl⟩
      · right; rw [if_neg h3]
        refine ⟨?_, rfl⟩
        rintro (h | ⟨_, h⟩)
        · omega
        · exact h3 (hl.mpr h)
    · right; rw [if_neg h2]
      refine ⟨?_, rfl⟩
      rintro (h | ⟨h, _⟩) <;> omega

/-- What is known of the best gateway after the gateways `seen`. -/
private def Known (e : Env) (seen : List Gw) : Option Gw → Prop
  | none => ∀ g ∈ seen, ¬ Candidate e g
  | some b => b ∈ seen ∧ Candidate e b ∧ ∀ g ∈ seen, Candidate e g → ¬ Better (order e.v6) g b

private theorem better_irrefl (v6 : Bool) (g : Gw) : ¬ Better (order v6) g g := by
  rintro (h | ⟨_, h⟩)
  · omega
  · unfold order at h
    cases v6 with
    | false => simp at h
    | true => simp only [if_true] at h; exact List.lt_irrefl _ h

private theorem consider_known {e : Env} {gs : List Gw} (hu : Uniform e gs) (hs : Speeds gs) {seen : List Gw}
    (hsub : ∀ x ∈ seen, x ∈ gs) {g : Gw} (hg : g ∈ gs) {b : Option Gw} (h : Known e seen b) :
    Known e (seen ++ [g]) (consider e b g) := by
  by_cases hc : Candidate e g
  · obtain ⟨hk, hev⟩ := (candidate_iff e g).mp hc
    cases b with
    | none =>
      have : consider e none g = some g := by
        unfold consider; rw [if_neg (by rw [hk]; simp), if_pos hev]
      rw [this]
      refine ⟨by simp, hc, fun x hx hxc => ?_⟩
      rcases List.mem_append.mp hx with hx | hx
      · exact absurd hxc (h x hx)
      · rw [List.mem_singleton.mp hx]; exact better_irrefl _ _
    | some b =>
      obtain ⟨h1, h2, h3⟩ := h
      rcases consider_better hu hs (hsub b h1) hg hk hev with ⟨hb, he⟩ | ⟨hb, he⟩
      · rw [he]
        refine ⟨by simp, hc, fun x hx hxc hxb => ?_⟩
        rcases List.mem_append.mp hx with hx | hx
        · exact h3 x hx hxc (better_trans _ hxb hb)
        · rw [List.mem_singleton.mp hx] at hxb; exact better_irrefl _ _ hxb
      · rw [he]
        refine ⟨by simp [h1], h2, fun x hx hxc => ?_⟩
        rcases List.mem_append.mp hx with hx | hx
        · exact h3 x hx hxc
        · rw [List.mem_singleton.mp hx]; exact hb
  · have he : consider e b g = b := by
      unfold consider
      by_cases hk : skip g = true
      · rw [if_pos hk]
      · rw [if_neg hk, if_neg]
        exact fun hev => hc ((candidate_iff e g).mpr ⟨by simpa using hk, hev⟩)
    rw [he]
    cases b with
    | none =>
      intro x hx
      rcases List.mem_append.mp hx with hx | hx
      · exact h x hx
      · rw [List.mem_singleton.mp hx]; exact hc
    | some b =>
      obtain ⟨h1, h2, h3⟩ := h
      refine ⟨by simp [h1], h2, fun x hx hxc => ?_⟩
      rcases List.mem_append.mp hx with hx | hx
      · exact h3 x hx hxc
      · rw [List.mem_singleton.mp hx] at hxc; exact absurd hxc hc

private theorem fold_known {e : Env} {gs : List Gw} (hu : Uniform e gs) (hs : Speeds gs) :
    ∀ (rest seen : List Gw) (b : Option Gw), (∀ x ∈ seen, x ∈ gs) → (∀ x ∈ rest, x ∈ gs) → Known e seen b →
      Known e (seen ++ rest) (rest.foldl (consider e) b)
  | [], seen, _, _, _, h => by simpa using h
  | g :: rest, seen, b, h1, h2, h => by
    have hg := h2 g List.mem_cons_self
    have hk := consider_known hu hs h1 hg h
    have := fold_known hu hs rest (seen ++ [g]) _
      (fun x hx => by
        rcases List.mem_append.mp hx with hx | hx
        · exact h1 x hx
        · rw [List.mem_singleton.mp hx]; exact hg)
      (fun x hx => h2 x (List.mem_cons_of_mem _ hx)) hk
    rw [List.append_assoc, List.singleton_append] at this
    exact this

/-- In an IPv4 network, and in an IPv6 network without access to IPv4: the choice is a candidate than which no
candidate is better, in whatever order the gateways come; without candidates it is the node itself.

What is missing for the full property: IPv6 with access to IPv4 (`C143_niit`), and for IPv4 addresses the
order is not that of the addresses as one reads them (`C143_lowest`). -/
theorem C143_best_partial (e : Env) (gs : List Gw) (hu : Uniform e gs) (hs : Speeds gs) :
    (∃ g ∈ gs, Candidate e g ∧ best e gs = g.addr ∧ ∀ h ∈ gs, Candidate e h → ¬ Better (order e.v6) h g) ∨
    ((∀ g ∈ gs, ¬ Candidate e g) ∧ best e gs = e.main) := by
  have h := fold_known hu hs gs [] none (by simp) (fun _ h => h) (by intro g hg; cases hg)
  rw [List.nil_append] at h
  unfold best
  cases hf : gs.foldl (consider e) none with
  | none => rw [hf] at h; exact Or.inr ⟨h, rfl⟩
  | some b => rw [hf] at h; exact Or.inl ⟨b, h.1, h.2.1, rfl, h.2.2⟩

private def w4 : Env := ⟨false, false, true, none, none, [10, 0, 0, 9]⟩

private def g4 (d up : Nat) (cost : Option Nat) : Gw := ⟨[10, 0, 0, d], up, 10, true, false, false, cost⟩

example : best w4 [g4 1 5 (some 100), g4 2 90 (some 4294967295), g4 3 7 (some 9), g4 4 80 none, g4 5 7 (some 9)] =
    [10, 0, 0, 3] := by decide +kernel

example : best w4 [g4 1 0 (some 100)] = [10, 0, 0, 9] := by decide +kernel

/-- "In case of a tie, the lowest IP address wins": of 10.0.0.2 and 10.0.1.1 with the same speeds it is 10.0.1.1, in
either order. -/
theorem C143_lowest :
    best w4 [⟨[10, 0, 0, 2], 5, 5, true, false, false, some 1⟩, ⟨[10, 0, 1, 1], 5, 5, true, false, false, some 1⟩] =
      [10, 0, 1, 1] ∧
    best w4 [⟨[10, 0, 1, 1], 5, 5, true, false, false, some 1⟩, ⟨[10, 0, 0, 2], 5, 5, true, false, false, some 1⟩] =
      [10, 0, 1, 1] := by decide +kernel

private def w6 : Env := ⟨true, true, true, none, none, List.replicate 16 9⟩

private def g6 (b c : Nat) (f4 f6 : Bool) : Gw :=
  ⟨[32, b, c, 0, 0, 0, 0, 0, 0, 0, 0, 0, 0, 0, 0, 1], 5, 5, f4, false, f6, some 1⟩

/-- In an IPv6 network with access to IPv4 the addresses are compared by their first four bytes for some gateways and as a
whole for others: of two gateways with equal speeds the second is chosen although the first has the lower address; the
outcome for such a pair depends on the order in which they come (the tree has them in ascending order). -/
theorem C143_niit :
    (g6 0 2 true false).addr < (g6 1 1 true false).addr ∧
    best w6 [g6 0 2 true false, g6 1 1 true false] = (g6 1 1 true false).addr ∧
    best w6 [g6 0 2 true true, g6 1 1 true true] = (g6 1 1 true true).addr ∧
    best w6 [g6 0 2 false true, g6 1 1 true false] = (g6 1 1 true false).addr ∧
    best w6 [g6 1 1 true false, g6 0 2 false true] = (g6 0 2 false true).addr := by decide +kernel

/-- A node that is its own only way out says so. -/
theorem C143_none (e : Env) : best e [] = e.main := rfl

end Verif.PudUplink
