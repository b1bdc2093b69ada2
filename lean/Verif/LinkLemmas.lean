import Verif.LinkModel
/-! Lemmas on the link set model. -/
namespace Verif.Link

/-- Two links are told apart by remote address and interface. -/
def SameKey (a b : Link) : Prop := a.remote = b.remote ∧ a.iface = b.iface

/-- Bookkeeping invariant of the link set and the neighbour table. -/
structure Ok (s : State) : Prop where
  uniq : s.links.Pairwise (fun a b => ¬ SameKey a b)
  ifs : ∀ l ∈ s.links, l.iface ∈ s.ifs
  cnt : ∀ n, s.nbrs n = none ∧ s.links.countP (fun l => l.nbr == n) = 0 ∨
    ∃ b, s.nbrs n = some b ∧ 0 < b.count ∧ b.count = s.links.countP (fun l => l.nbr == n)

theorem lookup_some {s : State} {r i : Nat} {l : Link} (h : lookupLink s r i = some l) :
    l ∈ s.links ∧ l.remote = r ∧ l.iface = i := by
  unfold lookupLink at h
  have h1 := List.mem_of_find?_eq_some h
  have h2 := List.find?_some h
  simp only [Bool.and_eq_true, beq_iff_eq] at h2
  exact ⟨h1, h2.1, h2.2⟩

theorem lookup_none {s : State} {r i : Nat} (h : lookupLink s r i = none) :
    ∀ l ∈ s.links, ¬ (l.remote = r ∧ l.iface = i) := by
  unfold lookupLink at h
  intro l hl hk
  have := List.find?_eq_none.1 h l hl
  simp only [Bool.and_eq_true, beq_iff_eq] at this
  exact this hk

theorem uniq_eq {ls : List Link} (hu : ls.Pairwise (fun a b => ¬ SameKey a b)) {a b : Link}
    (ha : a ∈ ls) (hb : b ∈ ls) (hk : SameKey a b) : a = b := by
  induction ls with
  | nil => cases ha
  | cons x xs ih =>
    rw [List.pairwise_cons] at hu
    rcases List.mem_cons.1 ha with rfl | ha'
    · rcases List.mem_cons.1 hb with rfl | hb'
      · rfl
      · exact absurd hk (hu.1 b hb')
    · rcases List.mem_cons.1 hb with rfl | hb'
      · exact absurd ⟨hk.1.symm, hk.2.symm⟩ (hu.1 a ha')
      · exact ih hu.2 ha' hb'

theorem lookup_of_mem {s : State} (hu : s.links.Pairwise (fun a b => ¬ SameKey a b)) {l : Link}
    (hl : l ∈ s.links) : lookupLink s l.remote l.iface = some l := by
  cases h : lookupLink s l.remote l.iface with
  | none => exact absurd ⟨rfl, rfl⟩ (lookup_none h l hl)
  | some x =>
    have hx := lookup_some h
    rw [uniq_eq hu hx.1 hl ⟨hx.2.1, hx.2.2⟩]

theorem symAt_iff {s : State} (hu : s.links.Pairwise (fun a b => ¬ SameKey a b)) {a i : Nat} :
    symAt s a i = true ↔ ∃ l ∈ s.links, l.remote = a ∧ l.iface = i ∧ l.symTimer = true := by
  unfold symAt
  constructor
  · intro h
    cases hl : lookupLink s a i with
    | none => rw [hl] at h; cases h
    | some l =>
      rw [hl] at h
      have := lookup_some hl
      exact ⟨l, this.1, this.2.1, this.2.2, h⟩
  · rintro ⟨l, hl, rfl, rfl, hs⟩
    rw [lookup_of_mem hu hl]
    exact hs

/-- What `get_neighbor_status` computes in a well-kept state. -/
theorem status_iff {mid : Mid} {s : State} {addr : Nat}
    (hu : s.links.Pairwise (fun a b => ¬ SameKey a b)) (hi : ∀ l ∈ s.links, l.iface ∈ s.ifs) :
    neighborStatus mid s addr = true ↔
      ∃ l ∈ s.links, l.symTimer = true ∧
        (l.remote = mainOf mid addr ∨ l.remote ∈ mid.aliases (mainOf mid addr)) := by
  unfold neighborStatus
  rw [List.any_eq_true]
  constructor
  · rintro ⟨i, _, h⟩
    rw [Bool.or_eq_true, List.any_eq_true] at h
    rcases h with h | ⟨a, ha, h⟩
    · obtain ⟨l, hl, h1, _, h3⟩ := (symAt_iff hu).1 h
      exact ⟨l, hl, h3, Or.inl h1⟩
    · obtain ⟨l, hl, h1, _, h3⟩ := (symAt_iff hu).1 h
      exact ⟨l, hl, h3, Or.inr (h1 ▸ ha)⟩
  · rintro ⟨l, hl, hs, h⟩
    refine ⟨l.iface, hi l hl, ?_⟩
    rw [Bool.or_eq_true, List.any_eq_true]
    rcases h with h | h
    · exact Or.inl ((symAt_iff hu).2 ⟨l, hl, h, rfl, hs⟩)
    · exact Or.inr ⟨l.remote, h, (symAt_iff hu).2 ⟨l, hl, rfl, rfl, hs⟩⟩

/-! ### The pieces keep the bookkeeping -/

theorem updateStatus_links (s : State) (n : Nat) (b : Bool) :
    (updateStatus s n b).links = s.links := by
  unfold updateStatus; cases s.nbrs n <;> rfl

theorem updateStatus_ifs (s : State) (n : Nat) (b : Bool) :
    (updateStatus s n b).ifs = s.ifs := by
  unfold updateStatus; cases s.nbrs n <;> rfl

theorem updateStatus_same {s : State} {n : Nat} {v : Bool} {b : Nbr}
    (h : (updateStatus s n v).nbrs n = some b) : b.sym = v := by
  unfold updateStatus at h
  cases hn : s.nbrs n with
  | none => rw [hn] at h; simp only [hn] at h; cases h
  | some c =>
    rw [hn] at h
    simp only [setNbr, if_true, Option.some.injEq] at h
    rw [← h]

theorem updateStatus_other {s : State} {n m : Nat} {v : Bool} (hne : m ≠ n) :
    (updateStatus s n v).nbrs m = s.nbrs m := by
  unfold updateStatus
  cases s.nbrs n with
  | none => rfl
  | some c => simp only [setNbr, if_neg hne]

theorem updateStatus_ok {s : State} (h : Ok s) (n : Nat) (v : Bool) : Ok (updateStatus s n v) := by
  refine ⟨?_, ?_, ?_⟩
  · rw [updateStatus_links]; exact h.uniq
  · rw [updateStatus_links, updateStatus_ifs]; exact h.ifs
  · intro m
    rw [updateStatus_links]
    by_cases hm : m = n
    · subst hm
      unfold updateStatus
      rcases h.cnt m with ⟨h1, h2⟩ | ⟨b, h1, h2, h3⟩
      · rw [h1]; exact Or.inl ⟨h1, h2⟩
      · rw [h1]
        refine Or.inr ⟨{ b with sym := v }, ?_, h2, h3⟩
        simp only [setNbr, if_true]
    · rw [updateStatus_other hm]; exact h.cnt m

/-- `f` leaves key and neighbour of a link alone. -/
def Keeps (f : Link → Link) : Prop :=
  ∀ l, (f l).remote = l.remote ∧ (f l).iface = l.iface ∧ (f l).nbr = l.nbr

theorem applyStatus_keeps (st : Status) : Keeps (applyStatus st) := by
  intro l; cases st <;> exact ⟨rfl, rfl, rfl⟩

theorem modify_mem {s : State} {r i : Nat} {f : Link → Link} {l : Link}
    (h : l ∈ (modifyLink s r i f).links) :
    ∃ x ∈ s.links, l = if x.remote = r ∧ x.iface = i then f x else x := by
  unfold modifyLink at h
  obtain ⟨x, hx, rfl⟩ := List.mem_map.1 h
  exact ⟨x, hx, rfl⟩

theorem mem_modify {s : State} {r i : Nat} {f : Link → Link} {x : Link} (h : x ∈ s.links) :
    (if x.remote = r ∧ x.iface = i then f x else x) ∈ (modifyLink s r i f).links :=
  List.mem_map.2 ⟨x, h, rfl⟩

theorem modify_count {s : State} {r i n : Nat} {f : Link → Link} (hf : Keeps f) :
    (modifyLink s r i f).links.countP (fun l => l.nbr == n) =
      s.links.countP (fun l => l.nbr == n) := by
  unfold modifyLink
  rw [List.countP_map]
  apply List.countP_congr
  intro l _
  simp only [Function.comp]
  by_cases hk : l.remote = r ∧ l.iface = i
  · rw [if_pos hk, (hf l).2.2]
  · rw [if_neg hk]

theorem modify_ok {s : State} (h : Ok s) {r i : Nat} {f : Link → Link} (hf : Keeps f) :
    Ok (modifyLink s r i f) := by
  have key : ∀ x : Link, (if x.remote = r ∧ x.iface = i then f x else x).remote = x.remote ∧
      (if x.remote = r ∧ x.iface = i then f x else x).iface = x.iface := by
    intro x
    by_cases hk : x.remote = r ∧ x.iface = i
    · rw [if_pos hk]; exact ⟨(hf x).1, (hf x).2.1⟩
    · rw [if_neg hk]; exact ⟨rfl, rfl⟩
  refine ⟨?_, ?_, ?_⟩
  · unfold modifyLink
    rw [List.pairwise_map]
    refine h.uniq.imp ?_
    intro a b hab hk
    unfold SameKey at hk hab
    rw [(key a).1, (key a).2, (key b).1, (key b).2] at hk
    exact hab hk
  · intro l hl
    obtain ⟨x, hx, rfl⟩ := modify_mem hl
    rw [(key x).2]
    exact h.ifs x hx
  · intro n
    rw [modify_count hf]
    exact h.cnt n

theorem addLink_ok {s : State} (h : Ok s) {r i src : Nat} (hi : i ∈ s.ifs)
    (hn : lookupLink s r i = none) : Ok (addLink s r i src) := by
  refine ⟨?_, ?_, ?_⟩
  · show (s.links ++ [_]).Pairwise _
    rw [List.pairwise_append]
    refine ⟨h.uniq, List.pairwise_singleton _ _, ?_⟩
    intro a ha b hb hk
    rw [List.mem_singleton] at hb
    subst hb
    exact lookup_none hn a ha hk
  · intro l hl
    rcases List.mem_append.1 hl with hl | hl
    · exact h.ifs l hl
    · rw [List.mem_singleton] at hl
      subst hl; exact hi
  · intro n
    have hc : (addLink s r i src).links.countP (fun l => l.nbr == n) =
        s.links.countP (fun l => l.nbr == n) + (if src = n then 1 else 0) := by
      show (s.links ++ [_]).countP _ = _
      rw [List.countP_append, List.countP_singleton]
      simp only [beq_iff_eq]
    rw [hc]
    by_cases hs : n = src
    · subst hs
      rw [if_pos rfl]
      refine Or.inr ?_
      rcases h.cnt n with ⟨h1, h2⟩ | ⟨b, h1, h2, h3⟩
      · refine ⟨{ sym := false, count := 1 }, ?_, Nat.one_pos, ?_⟩
        · simp only [addLink, setNbr, if_true, h1]
        · rw [h2]
      · refine ⟨{ b with count := b.count + 1 }, ?_, Nat.succ_pos _, ?_⟩
        · simp only [addLink, setNbr, if_true, h1]
        · show b.count + 1 = _
          rw [h3]
    · rw [if_neg (fun e => hs e.symm)]
      have : (addLink s r i src).nbrs n = s.nbrs n := by
        simp only [addLink, setNbr, if_neg hs]
      rw [this]
      exact h.cnt n

theorem hello_ok {mid : Mid} {s t : State} {r i src : Nat} {st : Status} (h : Ok s)
    (hi : i ∈ s.ifs) (ht : hello mid s r i src st = some t) : Ok t := by
  unfold hello at ht
  cases hl : lookupLink s r i with
  | some l =>
    rw [hl] at ht
    simp only at ht
    split at ht
    · cases ht
      exact updateStatus_ok (modify_ok h (applyStatus_keeps st)) _ _
    · cases ht
  | none =>
    rw [hl] at ht
    simp only at ht
    cases ht
    exact updateStatus_ok (modify_ok (addLink_ok h hi hl) (applyStatus_keeps st)) _ _

theorem symExpire_ok {mid : Mid} {s : State} {l : Link} {heard : Bool} (h : Ok s) :
    Ok (symExpire mid s l heard) := by
  have k1 : Keeps (fun x : Link => { x with symTimer := false }) := fun x => ⟨rfl, rfl, rfl⟩
  have k2 : Keeps (fun x : Link => { x with prev := if heard then .asym else .lost }) :=
    fun x => ⟨rfl, rfl, rfl⟩
  unfold symExpire
  simp only
  split
  · exact modify_ok h k1
  · exact updateStatus_ok (modify_ok (modify_ok h k1) k2) _ _

theorem countP_filter_key {ls : List Link} (hu : ls.Pairwise (fun a b => ¬ SameKey a b)) {l : Link}
    (hl : l ∈ ls) (n : Nat) :
    ls.countP (fun x => x.nbr == n) =
      (ls.filter (fun x => !(x.remote == l.remote && x.iface == l.iface))).countP
        (fun x => x.nbr == n) + (if l.nbr = n then 1 else 0) := by
  induction ls with
  | nil => cases hl
  | cons x xs ih =>
    rw [List.pairwise_cons] at hu
    rcases List.mem_cons.1 hl with rfl | hl'
    · have hall : xs.filter (fun x => !(x.remote == l.remote && x.iface == l.iface)) = xs := by
        apply List.filter_eq_self.2
        intro y hy
        have := hu.1 y hy
        simp only [Bool.not_eq_true', Bool.and_eq_false_iff, beq_eq_false_iff_ne, ne_eq]
        unfold SameKey at this
        by_cases e : y.remote = l.remote
        · exact Or.inr (fun e2 => this ⟨e.symm, e2.symm⟩)
        · exact Or.inl e
      rw [List.filter_cons]
      simp only [beq_self_eq_true, Bool.and_self, Bool.not_true, Bool.false_eq_true, if_false]
      rw [hall, List.countP_cons]
      simp only [beq_iff_eq]
    · have hne : ¬ (x.remote = l.remote ∧ x.iface = l.iface) := fun e => hu.1 l hl' e
      have hb : (!(x.remote == l.remote && x.iface == l.iface)) = true := by
        simp only [Bool.not_eq_true', Bool.and_eq_false_iff, beq_eq_false_iff_ne, ne_eq]
        by_cases e : x.remote = l.remote
        · exact Or.inr (fun e2 => hne ⟨e, e2⟩)
        · exact Or.inl e
      rw [List.filter_cons, if_pos hb, List.countP_cons, List.countP_cons, ih hu.2 hl']
      omega

theorem delete_mem {s : State} {l x : Link} :
    x ∈ (deleteLink s l).links ↔ x ∈ s.links ∧ ¬ SameKey x l := by
  show x ∈ s.links.filter _ ↔ _
  rw [List.mem_filter]
  simp only [Bool.not_eq_true', Bool.and_eq_false_iff, beq_eq_false_iff_ne, ne_eq, SameKey]
  constructor
  · rintro ⟨h1, h2⟩
    refine ⟨h1, ?_⟩
    rintro ⟨a, b⟩
    rcases h2 with h2 | h2
    · exact h2 a
    · exact h2 b
  · rintro ⟨h1, h2⟩
    refine ⟨h1, ?_⟩
    by_cases e : x.remote = l.remote
    · exact Or.inr (fun e2 => h2 ⟨e, e2⟩)
    · exact Or.inl e

theorem delete_ok {s : State} (h : Ok s) {l : Link} (hl : l ∈ s.links) : Ok (deleteLink s l) := by
  refine ⟨?_, ?_, ?_⟩
  · exact h.uniq.filter _
  · intro x hx
    exact h.ifs x (delete_mem.1 hx).1
  · intro n
    have hc := countP_filter_key h.uniq hl n
    show _ ∧ (s.links.filter _).countP _ = 0 ∨
      ∃ b : Nbr, _ ∧ _ ∧ b.count = (s.links.filter _).countP _
    by_cases hn : n = l.nbr
    · subst hn
      rw [if_pos rfl] at hc
      rcases h.cnt l.nbr with ⟨h1, h2⟩ | ⟨b, h1, h2, h3⟩
      · omega
      · by_cases hb : b.count = 1
        · refine Or.inl ⟨?_, by omega⟩
          simp only [deleteLink, h1, if_pos hb, setNbr, if_true]
        · refine Or.inr ⟨{ b with count := b.count - 1 }, ?_, ?_, ?_⟩
          · simp only [deleteLink, h1, if_neg hb, setNbr, if_true]
          · show 0 < b.count - 1
            omega
          · show b.count - 1 = _
            omega
    · rw [if_neg (fun e => hn e.symm)] at hc
      have he : (deleteLink s l).nbrs n = s.nbrs n := by
        unfold deleteLink
        cases h1 : s.nbrs l.nbr with
        | none => rfl
        | some b =>
          simp only
          split <;> simp only [setNbr, if_neg hn]
      rw [he]
      have := h.cnt n
      rw [hc] at this
      exact this

theorem delete_ifs (s : State) (l : Link) : (deleteLink s l).ifs = s.ifs := rfl

/-- Deleting a list of different links one after the other. -/
theorem deletes_ok : ∀ (ds : List Link) (s : State), Ok s → (∀ d ∈ ds, d ∈ s.links) →
    ds.Pairwise (fun a b => ¬ SameKey a b) →
    Ok (ds.foldl deleteLink s) ∧ (ds.foldl deleteLink s).ifs = s.ifs ∧
      ∀ x, x ∈ (ds.foldl deleteLink s).links ↔ x ∈ s.links ∧ ∀ d ∈ ds, ¬ SameKey x d := by
  intro ds
  induction ds with
  | nil =>
    intro s h _ _
    exact ⟨h, rfl, fun x => ⟨fun hx => ⟨hx, fun d hd => by cases hd⟩, fun hx => hx.1⟩⟩
  | cons d ds ih =>
    intro s h hm hp
    rw [List.pairwise_cons] at hp
    have hd := hm d (List.mem_cons_self ..)
    have := ih (deleteLink s d) (delete_ok h hd)
      (fun e he => delete_mem.2 ⟨hm e (List.mem_cons_of_mem _ he), fun hk =>
        hp.1 e he ⟨hk.1.symm, hk.2.symm⟩⟩) hp.2
    refine ⟨this.1, this.2.1, ?_⟩
    intro x
    rw [List.foldl_cons, this.2.2 x, delete_mem]
    constructor
    · rintro ⟨⟨h1, h2⟩, h3⟩
      refine ⟨h1, fun e he => ?_⟩
      rcases List.mem_cons.1 he with rfl | he
      · exact h2
      · exact h3 e he
    · rintro ⟨h1, h2⟩
      exact ⟨⟨h1, h2 d (List.mem_cons_self ..)⟩, fun e he => h2 e (List.mem_cons_of_mem _ he)⟩

theorem remove_mem {s : State} (h : Ok s) {i : Nat} {x : Link} :
    x ∈ (removeInterface s i).links ↔ x ∈ s.links ∧ x.iface ≠ i := by
  have hd := deletes_ok (s.links.filter (fun l => l.iface == i)) s h
    (fun d hd => (List.mem_filter.1 hd).1) (h.uniq.filter _)
  show x ∈ (List.foldl deleteLink s _).links ↔ _
  rw [hd.2.2 x]
  constructor
  · rintro ⟨h1, h2⟩
    refine ⟨h1, fun e => ?_⟩
    exact h2 x (List.mem_filter.2 ⟨h1, beq_iff_eq.2 e⟩) ⟨rfl, rfl⟩
  · rintro ⟨h1, h2⟩
    refine ⟨h1, fun d hd hk => ?_⟩
    have := beq_iff_eq.1 (List.mem_filter.1 hd).2
    exact h2 (hk.2.trans this)

theorem remove_ok {s : State} (h : Ok s) (i : Nat) : Ok (removeInterface s i) := by
  have hd := deletes_ok (s.links.filter (fun l => l.iface == i)) s h
    (fun d hd => (List.mem_filter.1 hd).1) (h.uniq.filter _)
  refine ⟨hd.1.uniq, ?_, hd.1.cnt⟩
  intro l hl
  have := (remove_mem h).1 hl
  show l.iface ∈ (List.foldl deleteLink s _).ifs.filter _
  rw [hd.2.1, List.mem_filter]
  refine ⟨h.ifs l this.1, ?_⟩
  simp only [bne_iff_ne, ne_eq]
  exact this.2

theorem step_ok {s t : State} {o : Op} (h : Ok s) (ht : step s o = some t) : Ok t := by
  cases o with
  | hello mid r i src st =>
    unfold step at ht
    simp only at ht
    split at ht
    · rename_i hi
      exact hello_ok h hi ht
    · cases ht
  | symExpire mid r i heard =>
    unfold step at ht
    simp only at ht
    split at ht
    · split at ht
      · cases ht; exact symExpire_ok h
      · cases ht
    · cases ht
  | linkExpire r i =>
    unfold step at ht
    simp only at ht
    split at ht
    · rename_i l hl
      cases ht
      exact delete_ok h (lookup_some hl).1
    · cases ht
  | addInterface i =>
    unfold step at ht
    simp only at ht
    split at ht
    · cases ht
    · cases ht
      exact ⟨h.uniq, fun l hl => List.mem_cons_of_mem _ (h.ifs l hl), h.cnt⟩
  | removeInterface i =>
    unfold step at ht
    cases ht
    exact remove_ok h i

theorem init_ok : Ok init := by
  refine ⟨List.Pairwise.nil, (fun l hl => by cases hl), fun n => Or.inl ⟨rfl, rfl⟩⟩

/-! ### Status of the neighbours -/

/-- Status of the neighbours after an entry was deleted: the remaining entries keep theirs. -/
theorem delete_status {s : State} {l : Link} {n : Nat} {b : Nbr}
    (h : (deleteLink s l).nbrs n = some b) : ∃ c, s.nbrs n = some c ∧ c.sym = b.sym := by
  by_cases hn : n = l.nbr
  · subst hn
    unfold deleteLink at h
    simp only at h
    cases h1 : s.nbrs l.nbr with
    | none => rw [h1] at h; simp only [h1] at h; cases h
    | some c =>
      rw [h1] at h
      simp only at h
      split at h
      · simp only [setNbr, if_true] at h; cases h
      · simp only [setNbr, if_true, Option.some.injEq] at h
        exact ⟨c, rfl, by rw [← h]⟩
  · refine ⟨b, ?_, rfl⟩
    have he : (deleteLink s l).nbrs n = s.nbrs n := by
      unfold deleteLink
      cases h1 : s.nbrs l.nbr with
      | none => rfl
      | some c =>
        simp only
        split <;> simp only [setNbr, if_neg hn]
    rw [← he]; exact h

theorem deletes_status : ∀ (ds : List Link) (s : State) {n : Nat} {b : Nbr},
    (ds.foldl deleteLink s).nbrs n = some b → ∃ c, s.nbrs n = some c ∧ c.sym = b.sym := by
  intro ds
  induction ds with
  | nil => intro s n b h; exact ⟨b, h, rfl⟩
  | cons d ds ih =>
    intro s n b h
    obtain ⟨c, hc, e⟩ := ih (deleteLink s d) h
    obtain ⟨c', hc', e'⟩ := delete_status hc
    exact ⟨c', hc', e'.trans e⟩

theorem remove_status {s : State} {i n : Nat} {b : Nbr}
    (h : (removeInterface s i).nbrs n = some b) : ∃ c, s.nbrs n = some c ∧ c.sym = b.sym :=
  deletes_status _ _ h

/-- A link of a state after a HELLO: the updated one or an old one. -/
theorem hello_spec {mid : Mid} {s t : State} {r i src : Nat} {st : Status} (h : Ok s)
    (ht : hello mid s r i src st = some t) :
    ∃ u v, t = updateStatus u src v ∧ v = neighborStatus mid u r ∧
      (∀ n, n ≠ src → u.nbrs n = s.nbrs n) ∧
      (∀ x ∈ u.links, (x ∈ s.links ∧ ¬ (x.remote = r ∧ x.iface = i)) ∨
        (x.remote = r ∧ x.iface = i ∧ x.nbr = src)) ∧
      (∀ x ∈ s.links, ¬ (x.remote = r ∧ x.iface = i) → x ∈ u.links) := by
  unfold hello at ht
  cases hl : lookupLink s r i with
  | some l =>
    rw [hl] at ht
    simp only at ht
    split at ht
    · rename_i hsrc
      cases ht
      refine ⟨_, _, rfl, rfl, fun n _ => rfl, ?_, ?_⟩
      · intro x hx
        obtain ⟨y, hy, rfl⟩ := modify_mem hx
        by_cases hk : y.remote = r ∧ y.iface = i
        · have hyl : y = l := by
            have := lookup_some hl
            exact uniq_eq h.uniq hy this.1 ⟨hk.1.trans this.2.1.symm, hk.2.trans this.2.2.symm⟩
          rw [if_pos hk]
          have hf := applyStatus_keeps st y
          refine Or.inr ⟨hf.1.trans hk.1, hf.2.1.trans hk.2, ?_⟩
          rw [hf.2.2, hyl]; exact hsrc
        · rw [if_neg hk]; exact Or.inl ⟨hy, hk⟩
      · intro x hx hk
        have := mem_modify (r := r) (i := i) (f := applyStatus st) hx
        rwa [if_neg hk] at this
    · cases ht
  | none =>
    rw [hl] at ht
    simp only at ht
    cases ht
    refine ⟨_, _, rfl, rfl, ?_, ?_, ?_⟩
    · intro n hn
      show setNbr _ _ _ n = _
      simp only [setNbr, if_neg hn]
    · intro x hx
      obtain ⟨y, hy, rfl⟩ := modify_mem hx
      rcases List.mem_append.1 hy with hy | hy
      · have hk := lookup_none hl y hy
        rw [if_neg hk]; exact Or.inl ⟨hy, hk⟩
      · rw [List.mem_singleton] at hy
        subst hy
        rw [if_pos ⟨rfl, rfl⟩]
        have hf := applyStatus_keeps st ⟨r, i, src, false, .asym⟩
        exact Or.inr ⟨hf.1, hf.2.1, hf.2.2⟩
    · intro x hx hk
      have hx' : x ∈ (addLink s r i src).links := List.mem_append_left _ hx
      have := mem_modify (r := r) (i := i) (f := applyStatus st) hx'
      rwa [if_neg hk] at this

end Verif.Link
