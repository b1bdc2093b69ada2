import Verif.TcSetModel
import Verif.TcPktLemmas
/-!
Lemmas on the topology set.
-/
namespace Verif.TcSet
open Verif.TcPkt

/-! ### Addresses and keys -/

/-- An address as it comes out of a message. -/
def IsAddr (env : Env) (a : List Nat) : Prop := a.length = env.ipsize ∧ ∀ x ∈ a, x < 256

theorem key_inj {env : Env} {a b : List Nat} (ha : IsAddr env a) (hb : IsAddr env b)
    (h : env.key a = env.key b) : a = b := by
  unfold Env.key TcPkt.key at h
  split at h
  · exact beVal_inj a b (ha.1.trans hb.1.symm) ha.2 hb.2 h
  · have := beVal_inj a.reverse b.reverse (by simpa using ha.1.trans hb.1.symm)
      (fun x hx => ha.2 x (List.mem_reverse.1 hx)) (fun x hx => hb.2 x (List.mem_reverse.1 hx)) h
    simpa using congrArg List.reverse this

/-! ### Edges -/

/-- The edges are in the order of the tree, with proper addresses. -/
def Sorted (env : Env) (es : List Edge) : Prop :=
  es.Pairwise (fun x y => env.key x.dest < env.key y.dest) ∧ ∀ e ∈ es, IsAddr env e.dest

theorem known_iff {es : List Edge} {a : List Nat} : known es a = true ↔ ∃ e ∈ es, e.dest = a := by
  unfold known
  rw [List.any_eq_true]
  constructor
  · rintro ⟨e, he, h⟩; exact ⟨e, he, by simpa using h⟩
  · rintro ⟨e, he, h⟩; exact ⟨e, he, by simpa using h⟩

theorem mem_insertEdge {k : List Nat → Nat} {e x : Edge} {es : List Edge} :
    x ∈ insertEdge k e es ↔ x = e ∨ x ∈ es := by
  induction es with
  | nil => simp [insertEdge]
  | cons y ys ih =>
    unfold insertEdge
    split
    · simp
    · rw [List.mem_cons, ih, List.mem_cons]
      constructor
      · rintro (h | h | h)
        · exact Or.inr (Or.inl h)
        · exact Or.inl h
        · exact Or.inr (Or.inr h)
      · rintro (h | h | h)
        · exact Or.inr (Or.inl h)
        · exact Or.inl h
        · exact Or.inr (Or.inr h)

theorem insertEdge_sorted {env : Env} {e : Edge} {es : List Edge} (hs : Sorted env es)
    (ha : IsAddr env e.dest) (hk : known es e.dest = false) :
    Sorted env (insertEdge env.key e es) := by
  refine ⟨?_, fun x hx => ?_⟩
  · obtain ⟨h1, h2⟩ := hs
    induction es with
    | nil => exact List.pairwise_singleton _ _
    | cons y ys ih =>
      rw [List.pairwise_cons] at h1
      unfold insertEdge
      split
      · rename_i hg
        rw [List.pairwise_cons, List.pairwise_cons]
        refine ⟨fun z hz => ?_, h1⟩
        rcases List.mem_cons.1 hz with rfl | hz
        · exact hg
        · exact Nat.lt_trans hg (h1.1 z hz)
      · rename_i hg
        have hk' : known ys e.dest = false := by
          rcases h : known ys e.dest with _ | _
          · rfl
          · exfalso
            obtain ⟨z, hz, hzd⟩ := known_iff.1 h
            have := known_iff.2 ⟨z, List.mem_cons_of_mem y hz, hzd⟩
            rw [hk] at this; cases this
        rw [List.pairwise_cons]
        refine ⟨fun z hz => ?_, ih hk' h1.2 (fun z hz => h2 z (List.mem_cons_of_mem _ hz))⟩
        rcases mem_insertEdge.1 hz with rfl | hz
        · have hne : env.key y.dest ≠ env.key z.dest := by
            intro he
            have := key_inj (h2 y (List.mem_cons_self ..)) ha he
            have := known_iff.2 ⟨y, List.mem_cons_self (l := ys), this⟩
            rw [hk] at this; cases this
          omega
        · exact h1.1 z hz
  · rcases mem_insertEdge.1 hx with rfl | hx
    · exact ha
    · exact hs.2 x hx

/-- Changes that keep the addresses keep the order. -/
theorem map_sorted {env : Env} {f : Edge → Edge} (hf : ∀ x, (f x).dest = x.dest) {es : List Edge}
    (hs : Sorted env es) : Sorted env (es.map f) := by
  refine ⟨?_, fun x hx => ?_⟩
  · rw [List.pairwise_map]
    exact hs.1.imp (fun h => by rw [hf, hf]; exact h)
  · obtain ⟨y, hy, rfl⟩ := List.mem_map.1 hx
    rw [hf]; exact hs.2 y hy

theorem replaceEdge_sorted {env : Env} {e : Edge} {es : List Edge} (hs : Sorted env es) :
    Sorted env (replaceEdge e es) := by
  refine map_sorted (fun x => ?_) hs
  split
  · rename_i h; exact h.symm
  · rfl

theorem touchEdge_sorted {env : Env} {a : List Nat} {n : Nat} {es : List Edge} (hs : Sorted env es) :
    Sorted env (touchEdge a n es) := by
  refine map_sorted (fun x => ?_) hs
  split <;> rfl

theorem mem_replaceEdge {e x : Edge} {es : List Edge} (hk : known es e.dest = true) :
    x ∈ replaceEdge e es ↔ x = e ∨ x ∈ es ∧ x.dest ≠ e.dest := by
  unfold replaceEdge
  rw [List.mem_map]
  constructor
  · rintro ⟨y, hy, h⟩
    split at h
    · exact Or.inl h.symm
    · rename_i hne
      subst h
      exact Or.inr ⟨hy, hne⟩
  · rintro (h | ⟨h, hne⟩)
    · obtain ⟨y, hy, hyd⟩ := known_iff.1 hk
      exact ⟨y, hy, by rw [if_pos hyd]; exact h.symm⟩
    · exact ⟨x, h, if_neg hne⟩

theorem filter_sorted {env : Env} {p : Edge → Bool} {es : List Edge} (hs : Sorted env es) :
    Sorted env (es.filter p) :=
  ⟨hs.1.filter _, fun x hx => hs.2 x (List.mem_filter.1 hx).1⟩

/-! ### Revoking edges -/

/-- The loop with the break is a filter, since the edges are sorted. -/
theorem revoke_eq {k : List Nat → Nat} {ansn : Nat} {lo hi : List Nat} :
    ∀ (es : List Edge) (passed : Bool), es.Pairwise (fun x y => k x.dest < k y.dest) →
    (passed = true → ∀ e ∈ es, k lo ≤ k e.dest) →
    revoke k ansn lo hi passed es = es.filter (fun e =>
      !(decide (k lo ≤ k e.dest) && decide (k e.dest < k hi) && Seqno.greater ansn e.ansn)) := by
  intro es
  induction es with
  | nil => intro p _ _; cases p <;> rfl
  | cons e es ih =>
    intro p hs hp
    rw [List.pairwise_cons] at hs
    unfold revoke
    split
    · rename_i h
      rw [ih false hs.2 (fun h => by cases h), List.filter_cons_of_pos]
      have : ¬ k lo ≤ k e.dest := by omega
      simp [this]
    · rename_i h
      have hlo : k lo ≤ k e.dest := by
        cases p with
        | true => exact hp rfl e (List.mem_cons_self ..)
        | false => exact Nat.le_of_not_gt (fun hg => h ⟨rfl, hg⟩)
      split
      · rename_i hhi
        symm
        rw [List.filter_eq_self]
        intro x hx
        have : ¬ k x.dest < k hi := by
          rcases List.mem_cons.1 hx with rfl | hx
          · omega
          · have := hs.1 x hx; omega
        simp [this]
      · rename_i hhi
        have hhi' : k e.dest < k hi := Nat.lt_of_not_ge hhi
        have hrest : ∀ x ∈ es, k lo ≤ k x.dest := fun x hx =>
          Nat.le_trans hlo (Nat.le_of_lt (hs.1 x hx))
        split
        · rename_i hg
          rw [ih true hs.2 (fun _ => hrest), List.filter_cons_of_neg]
          simp [hlo, hhi', hg]
        · rename_i hg
          rw [ih true hs.2 (fun _ => hrest), List.filter_cons_of_pos]
          simp [hg]

theorem revoke_sorted {env : Env} {ansn : Nat} {lo hi : List Nat} {es : List Edge}
    (hs : Sorted env es) : Sorted env (revoke env.key ansn lo hi false es) := by
  rw [revoke_eq es false hs.1 (fun h => by cases h)]
  exact filter_sorted hs

/-! ### The loop -/

theorem ipsize_pos (env : Env) : 0 < env.ipsize := by
  unfold Env.ipsize; split <;> decide

theorem updateEdge_sorted {env : Env} {ansn : Nat} {es es' : List Edge} {m a rest : List Nat}
    (hm : ∀ x ∈ m, x < 256) (hs : Sorted env es)
    (h : updateEdge env ansn es m = some (es', a, rest)) :
    Sorted env es' ∧ rest.length < m.length ∧ (∀ x ∈ rest, x < 256) ∧ IsAddr env a := by
  have hp := ipsize_pos env
  unfold updateEdge at h
  split at h
  · cases h
  · rename_i hlen
    have ha : IsAddr env (m.take env.ipsize) :=
      ⟨by rw [List.length_take, Nat.min_eq_left (by omega)], fun x hx => hm x (List.mem_of_mem_take hx)⟩
    split at h
    · split at h
      · cases h
        refine ⟨touchEdge_sorted hs, ?_, fun x hx => hm x (List.mem_of_mem_drop hx), ha⟩
        rw [List.length_drop]; omega
      · split at h
        · cases h
        · cases h
          refine ⟨replaceEdge_sorted hs, ?_, fun x hx => hm x (List.mem_of_mem_drop hx), ha⟩
          rw [List.length_drop]; omega
    · rename_i hk
      split at h
      · cases h
        refine ⟨hs, ?_, fun x hx => hm x (List.mem_of_mem_drop hx), ha⟩
        rw [List.length_drop]; omega
      · split at h
        · cases h
        · cases h
          refine ⟨insertEdge_sorted hs ha (by simpa using hk), ?_,
            fun x hx => hm x (List.mem_of_mem_drop hx), ha⟩
          rw [List.length_drop]; omega

theorem walk_sorted {env : Env} {ansn : Nat} : ∀ (fuel : Nat) (es : List Edge)
    (b : Option (List Nat × List Nat)) (m : List Nat) (es' : List Edge)
    (b' : Option (List Nat × List Nat)), (∀ x ∈ m, x < 256) → Sorted env es →
    walk env ansn fuel es b m = some (es', b') → Sorted env es' := by
  intro fuel
  induction fuel with
  | zero =>
    intro es b m es' b' hm hs h
    cases m with
    | nil => rw [walk] at h; cases h; exact hs
    | cons x m => rw [walk] at h; cases h
  | succ fuel ih =>
    intro es b m es' b' hm hs h
    cases m with
    | nil => rw [walk] at h; cases h; exact hs
    | cons x m =>
      rw [walk] at h
      cases hu : updateEdge env ansn es (x :: m) with
      | none => rw [hu] at h; cases h
      | some r =>
        obtain ⟨es1, a, rest⟩ := r
        rw [hu] at h
        obtain ⟨h1, _, h3, _⟩ := updateEdge_sorted hm hs hu
        exact ih es1 (bump b a) rest es' b' h3 h1 h

/-- More fuel than bytes changes nothing. -/
theorem walk_fuel {env : Env} {ansn : Nat} : ∀ (f1 f2 : Nat) (es : List Edge)
    (b : Option (List Nat × List Nat)) (m : List Nat), m.length ≤ f1 → m.length ≤ f2 →
    walk env ansn f1 es b m = walk env ansn f2 es b m := by
  intro f1
  induction f1 with
  | zero =>
    intro f2 es b m h1 _
    have : m = [] := List.length_eq_zero_iff.1 (by omega)
    subst this
    rw [walk, walk]
  | succ f1 ih =>
    intro f2 es b m h1 h2
    cases m with
    | nil => rw [walk, walk]
    | cons x m =>
      cases f2 with
      | zero => rw [List.length_cons] at h2; omega
      | succ f2 =>
        rw [walk, walk]
        cases hu : updateEdge env ansn es (x :: m) with
        | none => rfl
        | some r =>
          obtain ⟨es1, a, rest⟩ := r
          have hlt : rest.length < (x :: m).length := by
            have hp := ipsize_pos env
            unfold updateEdge at hu
            split at hu
            · cases hu
            · rename_i hlen
              split at hu
              · split at hu
                · cases hu; rw [List.length_drop]; omega
                · split at hu
                  · cases hu
                  · cases hu; rw [List.length_drop]; omega
              · split at hu
                · cases hu; rw [List.length_drop]; omega
                · split at hu
                  · cases hu
                  · cases hu; rw [List.length_drop]; omega
          exact ih f2 es1 (bump b a) rest (by omega) (by omega)

/-! ### The loop over a message with link quality -/

/-- The edge announced for a neighbour. -/
def edgeFor (ansn : Nat) (n : Item) : Edge := ⟨n.addr, ansn, n.lq % 256, n.nlq % 256⟩

/-- The edges after one announced neighbour. -/
def put (env : Env) (ansn : Nat) (es : List Edge) (n : Item) : List Edge :=
  if known es n.addr then replaceEdge (edgeFor ansn n) es
  else insertEdge env.key (edgeFor ansn n) es

theorem mem_put {env : Env} {ansn : Nat} {es : List Edge} {n : Item} {x : Edge} :
    x ∈ put env ansn es n ↔ x = edgeFor ansn n ∨ x ∈ es ∧ x.dest ≠ n.addr := by
  unfold put
  split
  · rename_i h
    exact mem_replaceEdge (e := edgeFor ansn n) h
  · rename_i h
    rw [mem_insertEdge]
    constructor
    · rintro (h1 | h1)
      · exact Or.inl h1
      · exact Or.inr ⟨h1, fun he => h (known_iff.2 ⟨x, h1, he⟩)⟩
    · rintro (h1 | h1)
      · exact Or.inl h1
      · exact Or.inr h1.1

theorem put_sorted {env : Env} {ansn : Nat} {es : List Edge} {n : Item} (hs : Sorted env es)
    (ha : IsAddr env n.addr) : Sorted env (put env ansn es n) := by
  unfold put
  split
  · exact replaceEdge_sorted hs
  · rename_i h
    exact insertEdge_sorted (e := edgeFor ansn n) hs ha (show known es n.addr = false by simpa using h)

theorem updateEdge_item {env : Env} {ansn : Nat} {es : List Edge} {n : Item} {rest : List Nat}
    (hlq : 0 < env.lqLevel) (hl : n.addr.length = env.ipsize)
    (hv : env.valid n.addr = true ∨ known es n.addr = true) :
    updateEdge env ansn es (itemBytes n ++ rest) = some (put env ansn es n, n.addr, rest) := by
  have h0 : itemBytes n ++ rest = n.addr ++ ([n.lq % 256, n.nlq % 256, 0, 0] ++ rest) := by
    unfold itemBytes; rw [List.append_assoc]
  have ht : (itemBytes n ++ rest).take env.ipsize = n.addr := by
    rw [h0, ← hl, List.take_left]
  have hd : (itemBytes n ++ rest).drop (env.ipsize + 4) = rest := by
    rw [h0, ← List.drop_drop, ← hl, List.drop_left]; rfl
  have g : ∀ i, (itemBytes n ++ rest).getD (env.ipsize + i) 0 =
      ([n.lq % 256, n.nlq % 256, 0, 0] ++ rest).getD i 0 := by
    intro i
    rw [h0, List.getD_eq_getElem?_getD, List.getElem?_append_right (by omega), hl,
      ← List.getD_eq_getElem?_getD]
    congr 1
    omega
  have g0 : (itemBytes n ++ rest).getD env.ipsize 0 = n.lq % 256 := g 0
  have g1 : (itemBytes n ++ rest).getD (env.ipsize + 1) 0 = n.nlq % 256 := g 1
  have hlen : (itemBytes n ++ rest).length = env.ipsize + 4 + rest.length := by
    rw [h0]; simp only [List.length_append, List.length_cons, List.length_nil, hl]; omega
  unfold updateEdge
  rw [ht, hd, g0, g1, hlen, if_neg (by omega), if_neg (by omega : ¬ env.lqLevel = 0)]
  rw [if_neg (by omega : ¬ env.ipsize + 4 + rest.length < env.ipsize + 2)]
  unfold put
  by_cases hk : known es n.addr = true
  · rw [if_pos hk, if_pos hk]
    rfl
  · rw [if_neg hk, if_neg hk]
    rcases hv with h | h
    · rw [if_neg (by rw [h]; decide),
        if_neg (by omega : ¬ env.ipsize + 4 + rest.length < env.ipsize + 2)]
      rfl
    · exact absurd h hk

/-- First and last address of a message. -/
def ends (b : Option (List Nat × List Nat)) (ns : List Item) : Option (List Nat × List Nat) :=
  ns.foldl (fun b n => bump b n.addr) b

theorem walk_items {env : Env} {ansn : Nat} (hlq : 0 < env.lqLevel) :
    ∀ (ns : List Item) (fuel : Nat) (es : List Edge) (b : Option (List Nat × List Nat)),
    (∀ n ∈ ns, n.addr.length = env.ipsize ∧ (env.valid n.addr = true ∨ known es n.addr = true)) →
    ns.length ≤ fuel →
    walk env ansn fuel es b (ns.map itemBytes).flatten =
      some (ns.foldl (put env ansn) es, ends b ns) := by
  intro ns
  induction ns with
  | nil => intro fuel es b _ _; rw [List.map_nil, List.flatten_nil, walk]; rfl
  | cons n ns ih =>
    intro fuel es b h hf
    rw [List.length_cons] at hf
    cases fuel with
    | zero => omega
    | succ fuel =>
      have hn := h n (List.mem_cons_self ..)
      rw [List.map_cons, List.flatten_cons]
      have hu := updateEdge_item (ansn := ansn) (rest := (ns.map itemBytes).flatten) hlq hn.1 hn.2
      obtain ⟨m, hm⟩ : ∃ m, itemBytes n ++ (ns.map itemBytes).flatten = m := ⟨_, rfl⟩
      rw [hm] at hu ⊢
      have hne : m ≠ [] := by
        intro he
        rw [← hm] at he
        have := congrArg List.length he
        simp [itemBytes] at this
      cases m with
      | nil => exact absurd rfl hne
      | cons x m =>
        rw [walk, hu]
        show walk env ansn fuel (put env ansn es n) (bump b n.addr) _ = _
        rw [ih fuel (put env ansn es n) (bump b n.addr) ?_ (by omega)]
        · rfl
        · intro n' hn'
          have h' := h n' (List.mem_cons_of_mem _ hn')
          refine ⟨h'.1, ?_⟩
          rcases h'.2 with hv | hk
          · exact Or.inl hv
          · right
            obtain ⟨e, he, hd⟩ := known_iff.1 hk
            by_cases hee : e.dest = n.addr
            · exact known_iff.2 ⟨edgeFor ansn n, mem_put.2 (Or.inl rfl), hee.symm.trans hd⟩
            · exact known_iff.2 ⟨e, mem_put.2 (Or.inr ⟨he, hee⟩), hd⟩

theorem mem_fold_put {env : Env} {ansn : Nat} : ∀ (ns : List Item) (es : List Edge) (x : Edge),
    (ns.map (fun n => n.addr)).Nodup →
    (x ∈ ns.foldl (put env ansn) es ↔
      (∃ n ∈ ns, x = edgeFor ansn n) ∨ x ∈ es ∧ ∀ n ∈ ns, x.dest ≠ n.addr) := by
  intro ns
  induction ns with
  | nil => intro es x _; simp
  | cons n ns ih =>
    intro es x hd
    rw [List.map_cons, List.nodup_cons] at hd
    rw [List.foldl_cons, ih _ x hd.2, mem_put]
    constructor
    · rintro (⟨n', hn', h⟩ | ⟨h | h, h2⟩)
      · exact Or.inl ⟨n', List.mem_cons_of_mem _ hn', h⟩
      · exact Or.inl ⟨n, List.mem_cons_self .., h⟩
      · refine Or.inr ⟨h.1, fun n' hn' => ?_⟩
        rcases List.mem_cons.1 hn' with rfl | hn'
        · exact h.2
        · exact h2 n' hn'
    · rintro (⟨n', hn', h⟩ | ⟨h, h2⟩)
      · rcases List.mem_cons.1 hn' with rfl | hn'
        · refine Or.inr ⟨Or.inl h, fun n2 hn2 he => hd.1 ?_⟩
          rw [h] at he
          exact List.mem_map.2 ⟨n2, hn2, he.symm⟩
        · exact Or.inl ⟨n', hn', h⟩
      · exact Or.inr ⟨Or.inr ⟨h, h2 n (List.mem_cons_self ..)⟩,
          fun n' hn' => h2 n' (List.mem_cons_of_mem _ hn')⟩

theorem fold_put_sorted {env : Env} {ansn : Nat} : ∀ (ns : List Item) (es : List Edge),
    Sorted env es → (∀ n ∈ ns, IsAddr env n.addr) → Sorted env (ns.foldl (put env ansn) es) := by
  intro ns
  induction ns with
  | nil => intro es h _; exact h
  | cons n ns ih =>
    intro es h ha
    exact ih _ (put_sorted h (ha n (List.mem_cons_self ..)))
      (fun n' hn' => ha n' (List.mem_cons_of_mem _ hn'))

theorem ends_some : ∀ (ns : List Item) (f l : List Nat) (n : Item), ns.getLast? = some n →
    ends (some (f, l)) ns = some (f, n.addr) := by
  intro ns
  induction ns with
  | nil => intro f l n h; cases h
  | cons x xs ih =>
    intro f l n h
    show ends (some (f, x.addr)) xs = _
    cases xs with
    | nil => cases h; rfl
    | cons y ys => exact ih f x.addr n (by rw [List.getLast?_cons_cons] at h; exact h)

theorem ends_none {ns : List Item} {a b : Item} (ha : ns.head? = some a)
    (hb : ns.getLast? = some b) : ends none ns = some (a.addr, b.addr) := by
  cases ns with
  | nil => cases ha
  | cons x xs =>
    cases ha
    show ends (some (a.addr, a.addr)) xs = _
    cases xs with
    | nil => cases hb; rfl
    | cons y ys => exact ends_some _ _ _ _ (by rw [List.getLast?_cons_cons] at hb; exact hb)

/-! ### Sequence numbers -/

theorem greater_irrefl (a : Nat) : Seqno.greater a a = false := by
  unfold Seqno.greater
  simp

end Verif.TcSet
