import Verif.DynGwModel

/-!
# C139: dyn_gw announces the networks that the routing table holds
-/

namespace Verif.DynGw

/-! ### Specification -/

/-- the table holds a route to the network that is up and was not set by the daemon itself -/
def present (fib : Int) (rs : List Route) (n : Net) : Bool :=
  rs.any (fun r => r.up && r.metric != fib && r.dest == n.1 && r.mask == maskOf n.2)

/-- all networks of the groups -/
def nets (gs : List Grp) : List Net := gs.flatMap (fun g => g.hnas.map (fun h => h.net))

/-- networks with pairwise different address and mask -/
def Distinct (ns : List Net) : Prop := (ns.map (fun n => (n.1, maskOf n.2))).Nodup

/-- a part of the configuration: pings, and the networks that depend on them -/
structure Block where
  pings : List (List Nat)
  hnas : List (List Nat × List Nat)

/-- the parameters of a part -/
def Block.params (b : Block) : List Param := b.pings.map .ping ++ b.hnas.map (fun x => .hna x.1 x.2)

/-- the group of a part -/
def Block.grp (b : Block) : Grp :=
  { hnas := (b.hnas.map (fun x => mkHn (x.1, Ipcalc.toPrefix x.2))).reverse, pings := b.pings.reverse, probe := false }

/-! ### The groups -/

private theorem pings_more : ∀ (l : List (List Nat)) (p : List (List Nat)) (r : List Grp),
    (l.map Param.ping).foldl setParam ({ hnas := [], pings := p, probe := false } :: r) =
      { hnas := [], pings := l.reverse ++ p, probe := false } :: r
  | [], _, _ => rfl
  | a :: l, p, r => by
    simp only [List.map_cons, List.foldl_cons]
    rw [show setParam ({ hnas := [], pings := p, probe := false } :: r) (.ping a) = { hnas := [], pings := a :: p, probe := false } :: r by
      simp [setParam], pings_more l (a :: p) r]
    simp

private theorem hnas_more : ∀ (l : List (List Nat × List Nat)) (g : Grp) (r : List Grp),
    (l.map (fun x => Param.hna x.1 x.2)).foldl setParam (g :: r) =
      { g with hnas := (l.map (fun x => mkHn (x.1, Ipcalc.toPrefix x.2))).reverse ++ g.hnas } :: r
  | [], _, _ => rfl
  | x :: l, g, r => by
    simp only [List.map_cons, List.foldl_cons]
    rw [show setParam (g :: r) (.hna x.1 x.2) = { g with hnas := mkHn (x.1, Ipcalc.toPrefix x.2) :: g.hnas } :: r from rfl,
      hnas_more l _ r]
    simp

private theorem block_add (b : Block) (gs : List Grp) (hp : b.pings ≠ []) (hg : ∀ g ∈ gs, g.hnas ≠ []) :
    b.params.foldl setParam gs = b.grp :: gs := by
  obtain ⟨ps, hs⟩ := b
  simp only at hp
  match ps, hp with
  | a :: l, _ =>
    unfold Block.params
    simp only [List.foldl_append, List.map_cons, List.foldl_cons]
    have h1 : setParam gs (.ping a) = { hnas := [], pings := [a], probe := false } :: gs := by
      cases gs with
      | nil => rfl
      | cons g r => simp [setParam, hg g (List.mem_cons_self ..)]
    rw [h1, pings_more l [a] gs, hnas_more]
    simp [Block.grp]

/-- **The groups.**  The parameters are parts of pings followed by networks; only the first part may be without pings, only
the last one without networks.  Each part becomes one group, the last one first; parameters that cannot be
read change nothing. -/
theorem C139_groups (b : Block) (bs : List Block) (ps : List Param) (hfirst : b.pings ≠ [] ∨ b.hnas ≠ [])
    (hb : ∀ x ∈ bs, x.pings ≠ []) (hn : ∀ x ∈ (b :: bs).dropLast, x.hnas ≠ [])
    (hps : ps.filter (fun p => p != .bogus) = (b :: bs).flatMap Block.params) :
    ps.foldl setParam [] = ((b :: bs).map Block.grp).reverse := by
  have hbog : ∀ (ps : List Param) (gs : List Grp), ps.foldl setParam gs = (ps.filter (fun p => p != .bogus)).foldl setParam gs := by
    intro ps
    induction ps with
    | nil => intro gs; rfl
    | cons p ps ih =>
      intro gs
      cases p with
      | bogus =>
        rw [List.foldl_cons, show setParam gs .bogus = gs by cases gs <;> rfl, ih]
        simp
      | ping a => simp only [List.foldl_cons]; rw [ih]; simp
      | hna a m => simp only [List.foldl_cons]; rw [ih]; simp
  rw [hbog, hps, List.flatMap_cons, List.foldl_append]
  have h1 : b.params.foldl setParam [] = [b.grp] := by
    by_cases hp : b.pings = []
    · obtain ⟨p, hs⟩ := b
      simp only at hp hfirst
      subst hp
      match hs, hfirst with
      | x :: l, _ =>
        simp only [Block.params, List.map_nil, List.nil_append, List.map_cons, List.foldl_cons]
        rw [show setParam [] (.hna x.1 x.2) = [{ hnas := [mkHn (x.1, Ipcalc.toPrefix x.2)], pings := [], probe := false }] from rfl,
          hnas_more]
        simp [Block.grp]
      | [], h => exact absurd h (by simp)
    · exact block_add b [] hp (by simp)
  rw [h1]
  have hgen : ∀ (bs : List Block) (b : Block) (gs : List Grp), (∀ x ∈ bs, x.pings ≠ []) → (∀ x ∈ (b :: bs).dropLast, x.hnas ≠ []) →
      (∀ g ∈ gs, g.hnas ≠ []) →
      (bs.flatMap Block.params).foldl setParam (b.grp :: gs) = (bs.map Block.grp).reverse ++ b.grp :: gs := by
    intro bs
    induction bs with
    | nil => intro b gs _ _ _; rfl
    | cons c cs ih =>
      intro b gs h1 h2 h3
      have hbn : b.hnas ≠ [] := h2 b (by simp)
      have hg : ∀ g ∈ b.grp :: gs, g.hnas ≠ [] := by
        intro g hg
        rcases List.mem_cons.1 hg with rfl | hg
        · simpa [Block.grp] using hbn
        · exact h3 g hg
      rw [List.flatMap_cons, List.foldl_append, block_add c (b.grp :: gs) (h1 c (List.mem_cons_self ..)) hg,
        ih c (b.grp :: gs) (fun x hx => h1 x (List.mem_cons_of_mem _ hx)) (fun x hx => h2 x (by
          rw [List.dropLast_cons_of_ne_nil (by simp)]; exact List.mem_cons_of_mem _ hx)) hg]
      simp
  rw [hgen bs b [] hb hn (by simp)]
  simp

example : [Param.hna [10, 0, 0, 0] [255, 0, 0, 0], .bogus, .ping [1, 1, 1, 1], .ping [8, 8, 8, 8]].foldl setParam [] =
    [{ hnas := [], pings := [[8, 8, 8, 8], [1, 1, 1, 1]], probe := false },
     { hnas := [mkHn ([10, 0, 0, 0], 8)], pings := [], probe := false }] := by decide +kernel

/-! ### The routing table -/

private def hit (r : Route) (h : Hn) : Bool := h.net.1 == r.dest && maskOf h.net.2 == r.mask

private theorem markHnas_eq (r : Route) : ∀ hs : List Hn, Distinct (hs.map (fun h => h.net)) →
    (markHnas r hs = none ∧ ∀ h ∈ hs, hit r h = false) ∨
    (markHnas r hs = some (hs.map (fun h => if hit r h then { h with checked := true } else h)) ∧ ∃ h ∈ hs, hit r h = true)
  | [], _ => Or.inl ⟨rfl, by simp⟩
  | h :: hs, hd => by
    have hd' : Distinct (hs.map (fun h => h.net)) := by
      unfold Distinct at hd ⊢; simp only [List.map_cons, List.nodup_cons] at hd; exact hd.2
    by_cases hh : h.net.1 = r.dest ∧ maskOf h.net.2 = r.mask
    · have hht : hit r h = true := by simp [hit, hh.1, hh.2]
      refine Or.inr ⟨?_, h, List.mem_cons_self .., hht⟩
      unfold markHnas
      rw [if_pos hh, List.map_cons, if_pos hht]
      congr 2
      have hno : ∀ x ∈ hs, hit r x = false := by
        intro x hx
        cases hxx : hit r x
        · rfl
        · exfalso
          simp only [hit, Bool.and_eq_true, beq_iff_eq] at hxx
          unfold Distinct at hd
          simp only [List.map_cons, List.nodup_cons] at hd
          apply hd.1
          rw [hh.1, hh.2, ← hxx.1, ← hxx.2]
          exact List.mem_map.2 ⟨x.net, List.mem_map.2 ⟨x, hx, rfl⟩, rfl⟩
      have hrw : hs.map (fun h => if hit r h then { h with checked := true } else h) = hs.map id :=
        List.map_congr_left (fun x hx => by rw [hno x hx]; rfl)
      rw [hrw]; simp
    · have hhf : hit r h = false := by
        cases hxx : hit r h
        · rfl
        · simp only [hit, Bool.and_eq_true, beq_iff_eq] at hxx; exact absurd hxx hh
      unfold markHnas
      rw [if_neg hh]
      rcases markHnas_eq r hs hd' with ⟨h1, h2⟩ | ⟨h1, x, hx, hxx⟩
      · refine Or.inl ⟨by rw [h1]; rfl, ?_⟩
        intro x hx
        rcases List.mem_cons.1 hx with rfl | hx
        · exact hhf
        · exact h2 x hx
      · refine Or.inr ⟨?_, x, List.mem_cons_of_mem _ hx, hxx⟩
        rw [h1, List.map_cons, hhf]; rfl

private theorem distinct_append {a b : List Net} (h : Distinct (a ++ b)) :
    Distinct a ∧ Distinct b ∧ ∀ x ∈ a, ∀ y ∈ b, (x.1, maskOf x.2) ≠ (y.1, maskOf y.2) := by
  unfold Distinct at h ⊢
  rw [List.map_append, List.nodup_append] at h
  refine ⟨h.1, h.2.1, fun x hx y hy => h.2.2 _ (List.mem_map.2 ⟨x, hx, rfl⟩) _ (List.mem_map.2 ⟨y, hy, rfl⟩)⟩

private def mapHnas (f : Hn → Hn) (gs : List Grp) : List Grp := gs.map (fun g => { g with hnas := g.hnas.map f })

private theorem mapHnas_id {f : Hn → Hn} {gs : List Grp} (h : ∀ g ∈ gs, ∀ x ∈ g.hnas, f x = x) : mapHnas f gs = gs := by
  unfold mapHnas
  have : gs.map (fun g => { g with hnas := g.hnas.map f }) = gs.map id := by
    refine List.map_congr_left (fun g hg => ?_)
    rw [show g.hnas.map f = g.hnas.map id from List.map_congr_left (fun x hx => h g hg x hx)]
    simp
  rw [this]; simp

private theorem markGroups_eq (r : Route) : ∀ gs : List Grp, Distinct (nets gs) →
    markGroups r gs = mapHnas (fun h => if hit r h then { h with checked := true } else h) gs
  | [], _ => rfl
  | g :: gs, hd => by
    obtain ⟨h1, h2, h3⟩ := distinct_append (a := g.hnas.map (fun h => h.net)) (b := nets gs) (by
      unfold nets at hd ⊢; rw [List.flatMap_cons] at hd; exact hd)
    unfold markGroups
    rcases markHnas_eq r g.hnas h1 with ⟨hm, hno⟩ | ⟨hm, x, hx, hxx⟩
    · rw [hm]
      simp only []
      rw [markGroups_eq r gs h2]
      unfold mapHnas
      rw [List.map_cons]
      congr 1
      have : g.hnas.map (fun h => if hit r h then { h with checked := true } else h) = g.hnas.map id :=
        List.map_congr_left (fun x hx => by rw [hno x hx]; rfl)
      rw [this]; simp
    · rw [hm]
      simp only []
      unfold mapHnas
      rw [List.map_cons]
      congr 1
      refine (mapHnas_id ?_).symm
      intro g' hg' y hy
      have hne := h3 x.net (List.mem_map.2 ⟨x, hx, rfl⟩) y.net (List.mem_flatMap.2 ⟨g', hg', List.mem_map.2 ⟨y, hy, rfl⟩⟩)
      rw [if_neg]
      intro hyy
      simp only [hit, Bool.and_eq_true, beq_iff_eq] at hxx hyy
      apply hne
      rw [hxx.1, hxx.2, hyy.1, hyy.2]

private theorem nets_mapHnas {f : Hn → Hn} (hf : ∀ h, (f h).net = h.net) (gs : List Grp) : nets (mapHnas f gs) = nets gs := by
  unfold nets mapHnas
  rw [List.flatMap_map]
  simp only [List.map_map]
  congr 1
  funext g
  exact List.map_congr_left (fun h _ => hf h)

private theorem mapHnas_mapHnas (f k : Hn → Hn) (gs : List Grp) : mapHnas f (mapHnas k gs) = mapHnas (fun h => f (k h)) gs := by
  unfold mapHnas
  simp [Function.comp_def]

private theorem lines_eq (fib : Int) : ∀ (rs : List Route) (gs : List Grp), Distinct (nets gs) →
    rs.foldl (line fib) gs = mapHnas (fun h => { h with checked := h.checked || present fib rs h.net }) gs
  | [], gs, _ => by
    rw [mapHnas_id]; rfl
    intro g _ h _; simp [present]
  | r :: rs, gs, hd => by
    rw [List.foldl_cons]
    have h1 : line fib gs r = mapHnas (fun h => { h with checked := h.checked || present fib [r] h.net }) gs := by
      unfold line
      by_cases hc : r.up = true ∧ r.metric ≠ fib
      · rw [if_pos hc, markGroups_eq r gs hd]
        congr 1
        funext h
        by_cases hh : hit r h = true
        · rw [if_pos hh]
          simp only [hit, Bool.and_eq_true, beq_iff_eq] at hh
          simp [present, hc.1, hc.2, hh.1, hh.2]
        · rw [if_neg hh]
          have : present fib [r] h.net = false := by
            cases hp : present fib [r] h.net
            · rfl
            · simp only [present, List.any_cons, List.any_nil, Bool.or_false, Bool.and_eq_true, beq_iff_eq] at hp
              exact absurd (by simp [hit, hp.1.2, hp.2]) hh
          rw [this]; simp
      · rw [if_neg hc, mapHnas_id]
        intro g _ h _
        have : present fib [r] h.net = false := by
          cases hp : present fib [r] h.net
          · rfl
          · simp only [present, List.any_cons, List.any_nil, Bool.or_false, Bool.and_eq_true, beq_iff_eq, bne_iff_ne] at hp
            exact absurd hp.1.1 hc
        rw [this]; simp
    rw [h1, lines_eq fib rs _ (by rw [nets_mapHnas]; exact hd; exact fun _ => rfl), mapHnas_mapHnas]
    congr 1
    funext h
    simp [present, Bool.or_assoc]

/-- **The table.**  If no two networks of the configuration are the same, a reading of the routing table marks exactly the networks
to which it holds a route that is up and has not the metric of the daemon.  A table that cannot be read leaves the
marks. -/
theorem C139_table (fib : Int) (gs : List Grp) (rs : List Route) (hd : Distinct (nets gs)) :
    (updateRouting fib gs (some rs)).map (fun g => (g.hnas.map (fun h => (h.net, h.added, h.active)), g.pings, g.probe)) =
      gs.map (fun g => (g.hnas.map (fun h => (h.net, h.added, present fib rs h.net)), g.pings, g.probe)) ∧
    updateRouting fib gs none = gs := by
  refine ⟨?_, rfl⟩
  have h0 : gs.map (fun g => { g with hnas := g.hnas.map (fun h => { h with checked := false }) }) =
    mapHnas (fun h => { h with checked := false }) gs := rfl
  have hu : updateRouting fib gs (some rs) =
      mapHnas (fun h => { h with active := h.checked }) (rs.foldl (line fib) (mapHnas (fun h => { h with checked := false }) gs)) := rfl
  rw [hu, lines_eq fib rs _ (by rw [nets_mapHnas]; exact hd; exact fun _ => rfl), mapHnas_mapHnas, mapHnas_mapHnas]
  unfold mapHnas
  simp [Function.comp_def]

example : present 2 [⟨[10, 0, 0, 0], [255, 0, 0, 0], true, 0⟩, ⟨[0, 0, 0, 0], [0, 0, 0, 0], true, 2⟩] ([10, 0, 0, 0], 8) = true ∧
    present 2 [⟨[10, 0, 0, 0], [255, 0, 0, 0], true, 0⟩, ⟨[0, 0, 0, 0], [0, 0, 0, 0], true, 2⟩] ([0, 0, 0, 0], 0) = false := by
  decide +kernel

/-- Of two groups with the same network, the second one is never active, even if the pings of the first one fail and
those of the second succeed. -/
theorem C139_twice :
    let s := run (init [.ping [1, 1, 1, 1], .hna [10, 0, 0, 0] [255, 0, 0, 0], .ping [8, 8, 8, 8], .hna [10, 0, 0, 0] [255, 0, 0, 0]] []
        2 (some [⟨[10, 0, 0, 0], [255, 0, 0, 0], true, 0⟩]))
      [.probe 0 [false], .probe 1 [true], .tick (some [⟨[10, 0, 0, 0], [255, 0, 0, 0], true, 0⟩])]
    s.entries = [] := by decide +kernel

/-! ### The entries -/

private theorem tickHnas_snd (p : Bool) : ∀ (hs : List Hn) (es : List Net),
    (tickHnas p es hs).2 = hs.map (fun h => { h with added := p && h.active })
  | [], _ => rfl
  | h :: hs, es => by
    unfold tickHnas
    have ih := tickHnas_snd p hs
    obtain ⟨n, a, c, v⟩ := h
    cases a <;> cases v <;> cases p <;> simp [ih]

private theorem tickHnas_filter (p : Bool) (q : Net → Bool) : ∀ (hs : List Hn) (es : List Net), (∀ h ∈ hs, q h.net = false) →
    (tickHnas p es hs).1.filter q = es.filter q
  | [], _, _ => rfl
  | h :: hs, es, hq => by
    have ih := fun es => tickHnas_filter p q hs es (fun x hx => hq x (List.mem_cons_of_mem _ hx))
    have hh := hq h (List.mem_cons_self ..)
    unfold tickHnas
    have hf : (es.filter (fun e => e != h.net)).filter q = es.filter q := by
      rw [List.filter_filter]
      refine List.filter_congr (fun e _ => ?_)
      by_cases he : e = h.net
      · rw [he, hh]; rfl
      · simp [he]
    (repeat' split)
    · simp only []; rw [ih, List.filter_cons_of_neg (by rw [hh]; decide)]
    · exact ih es
    · simp only []; rw [ih, hf]
    · exact ih es

private theorem mem_of_filter {es es' : List Net} {n : Net} (h : es'.filter (fun e => e == n) = es.filter (fun e => e == n)) :
    n ∈ es' ↔ n ∈ es := by
  have : ∀ l : List Net, n ∈ l ↔ n ∈ l.filter (fun e => e == n) := fun l => by simp
  rw [this es', this es, h]

private theorem tickHnas_cons (p : Bool) (es : List Net) (h : Hn) (hs : List Hn) :
    (tickHnas p es (h :: hs)).1 =
      if h.added = false then
        if p = true ∧ h.active = true then (tickHnas p (h.net :: es) hs).1 else (tickHnas p es hs).1
      else
        if p = false ∨ h.active = false then (tickHnas p (es.filter (fun e => e != h.net)) hs).1 else (tickHnas p es hs).1 := by
  conv => lhs; unfold tickHnas
  (repeat' split) <;> rfl

private theorem tickHnas_mem (p : Bool) : ∀ (hs : List Hn) (es : List Net), (hs.map (fun h => h.net)).Nodup →
    (∀ h ∈ hs, h.net ∈ es ↔ h.added = true) → ∀ h ∈ hs, h.net ∈ (tickHnas p es hs).1 ↔ (p && h.active) = true
  | [], _, _, _ => by simp
  | h :: hs, es, hd, hi => by
    simp only [List.map_cons, List.nodup_cons] at hd
    have hne : ∀ x ∈ hs, x.net ≠ h.net := fun x hx he => hd.1 (he ▸ List.mem_map.2 ⟨x, hx, rfl⟩)
    have hi1 := hi h (List.mem_cons_self ..)
    have hi2 : ∀ x ∈ hs, x.net ∈ es ↔ x.added = true := fun x hx => hi x (List.mem_cons_of_mem _ hx)
    have hlast : ∀ es', h.net ∈ (tickHnas p es' hs).1 ↔ h.net ∈ es' := fun es' =>
      mem_of_filter (tickHnas_filter p _ hs es' (fun x hx => by simpa using hne x hx))
    have hstep : ∃ es', (tickHnas p es (h :: hs)).1 = (tickHnas p es' hs).1 ∧ (h.net ∈ es' ↔ (p && h.active) = true) ∧
        ∀ x ∈ hs, x.net ∈ es' ↔ x.added = true := by
      rw [tickHnas_cons]
      by_cases ha : h.added = false
      · rw [if_pos ha]
        by_cases hc : p = true ∧ h.active = true
        · rw [if_pos hc]
          refine ⟨h.net :: es, rfl, by simp [hc.1, hc.2], fun x hx => ?_⟩
          rw [List.mem_cons, hi2 x hx]
          simp [hne x hx]
        · rw [if_neg hc]
          refine ⟨es, rfl, ?_, hi2⟩
          rw [hi1, ha]
          simp only [Bool.false_eq_true, Bool.and_eq_true, false_iff]
          exact hc
      · rw [if_neg ha]
        by_cases hc : p = false ∨ h.active = false
        · rw [if_pos hc]
          refine ⟨es.filter (fun e => e != h.net), rfl, ?_, fun x hx => ?_⟩
          · rcases hc with hc | hc <;> simp [hc]
          · rw [List.mem_filter, ← hi2 x hx]
            simp [hne x hx]
        · rw [if_neg hc]
          refine ⟨es, rfl, ?_, hi2⟩
          rw [hi1]
          cases h1 : h.added <;> cases h2 : h.active <;> cases p <;> simp_all
    obtain ⟨es', he, hm, hr⟩ := hstep
    intro x hx
    rw [he]
    rcases List.mem_cons.1 hx with rfl | hx
    · rw [hlast, hm]
    · exact tickHnas_mem p hs es' hd.2 hr x hx

private theorem tickGroups_snd : ∀ (gs : List Grp) (es : List Net),
    (tickGroups es gs).2 = gs.map (fun g => { g with hnas := g.hnas.map (fun h => { h with added := g.probe && h.active }) })
  | [], _ => rfl
  | g :: gs, es => by
    unfold tickGroups
    rw [tickHnas_snd, tickGroups_snd gs]; rfl

private theorem tickGroups_filter (q : Net → Bool) : ∀ (gs : List Grp) (es : List Net), (∀ n ∈ nets gs, q n = false) →
    (tickGroups es gs).1.filter q = es.filter q
  | [], _, _ => rfl
  | g :: gs, es, hq => by
    unfold tickGroups
    simp only []
    rw [tickGroups_filter q gs _ (fun n hn => hq n (by unfold nets at hn ⊢; rw [List.flatMap_cons]; exact List.mem_append_right _ hn)),
      tickHnas_filter _ q _ _ (fun h hh => hq h.net (by
        unfold nets; rw [List.flatMap_cons]; exact List.mem_append_left _ (List.mem_map.2 ⟨h, hh, rfl⟩)))]

private theorem tickGroups_mem : ∀ (gs : List Grp) (es : List Net), (nets gs).Nodup →
    (∀ g ∈ gs, ∀ h ∈ g.hnas, h.net ∈ es ↔ h.added = true) →
    ∀ g ∈ gs, ∀ h ∈ g.hnas, h.net ∈ (tickGroups es gs).1 ↔ (g.probe && h.active) = true
  | [], _, _, _ => by simp
  | g :: gs, es, hd, hi => by
    unfold nets at hd
    rw [List.flatMap_cons, List.nodup_append] at hd
    obtain ⟨h1, h2, h3⟩ := hd
    have hmem := tickHnas_mem g.probe g.hnas es h1 (hi g (List.mem_cons_self ..))
    unfold tickGroups
    simp only []
    intro k hk x hx
    rcases List.mem_cons.1 hk with rfl | hk
    · rw [← hmem x hx]
      refine mem_of_filter (tickGroups_filter _ gs _ (fun n hn => ?_))
      have := h3 x.net (List.mem_map.2 ⟨x, hx, rfl⟩) n hn
      simpa using fun h => this h.symm
    · refine tickGroups_mem gs _ h2 ?_ k hk x hx
      intro k' hk' y hy
      rw [← hi k' (List.mem_cons_of_mem _ hk') y hy]
      refine mem_of_filter (tickHnas_filter _ _ _ _ (fun h hh => ?_))
      have := h3 h.net (List.mem_map.2 ⟨h, hh, rfl⟩) y.net (List.mem_flatMap.2 ⟨k', hk', List.mem_map.2 ⟨y, hy, rfl⟩⟩)
      simpa using this

/-- networks, pings -/
private def shape (gs : List Grp) : List (List Net × List (List Nat)) := gs.map (fun g => (g.hnas.map (fun h => h.net), g.pings))

private theorem nets_shape (gs : List Grp) : nets gs = (shape gs).flatMap (fun x => x.1) := by
  unfold nets shape; rw [List.flatMap_map]

private theorem shape_update {fib : Int} {gs : List Grp} {t : Option (List Route)} (hd : Distinct (nets gs)) :
    shape (updateRouting fib gs t) = shape gs ∧
    (updateRouting fib gs t).map (fun g => (g.hnas.map (fun h => (h.net, h.added)), g.probe)) =
      gs.map (fun g => (g.hnas.map (fun h => (h.net, h.added)), g.probe)) := by
  cases t with
  | none => exact ⟨rfl, rfl⟩
  | some rs =>
    have h := (C139_table fib gs rs hd).1
    constructor
    · have h1 := congrArg (List.map (fun (x : List (Net × Bool × Bool) × List (List Nat) × Bool) => (x.1.map (fun y => y.1), x.2.1))) h
      simpa [shape, Function.comp_def] using h1
    · have h1 := congrArg (List.map (fun (x : List (Net × Bool × Bool) × List (List Nat) × Bool) => (x.1.map (fun y => (y.1, y.2.1)), x.2.2))) h
      simpa [Function.comp_def] using h1

private def Inv (e0 : List Net) (sh : List (List Net × List (List Nat))) (s : St) : Prop :=
  shape s.groups = sh ∧ (∀ g ∈ s.groups, ∀ h ∈ g.hnas, h.net ∈ s.entries ↔ h.added = true) ∧
    s.entries.filter (fun n => !(nets s.groups).contains n) = e0 ∧ (s.ping = false → ∀ g ∈ s.groups, g.probe = true)

private theorem distinct_nodup {l : List Net} (h : Distinct l) : l.Nodup :=
  (List.pairwise_map.1 h).imp (fun hne he => hne (by rw [he]))

private theorem added_of_map {gs gs' : List Grp}
    (h : gs'.map (fun g => (g.hnas.map (fun h => (h.net, h.added)), g.probe)) = gs.map (fun g => (g.hnas.map (fun h => (h.net, h.added)), g.probe)))
    {P : Net → Bool → Prop} (hi : ∀ g ∈ gs, ∀ x ∈ g.hnas, P x.net x.added) : ∀ g ∈ gs', ∀ x ∈ g.hnas, P x.net x.added := by
  intro g hg x hx
  have h1 : (g.hnas.map (fun h => (h.net, h.added)), g.probe) ∈ gs.map (fun g => (g.hnas.map (fun h => (h.net, h.added)), g.probe)) := by
    rw [← h]; exact List.mem_map.2 ⟨g, hg, rfl⟩
  obtain ⟨k, hk, he⟩ := List.mem_map.1 h1
  have h2 : (x.net, x.added) ∈ k.hnas.map (fun h => (h.net, h.added)) := by
    rw [(Prod.mk.inj he).1]; exact List.mem_map.2 ⟨x, hx, rfl⟩
  obtain ⟨y, hy, hye⟩ := List.mem_map.1 h2
  have := hi k hk y hy
  rw [(Prod.mk.inj hye).1, (Prod.mk.inj hye).2] at this
  exact this

private theorem probe_of_map {gs gs' : List Grp}
    (h : gs'.map (fun g => (g.hnas.map (fun h => (h.net, h.added)), g.probe)) = gs.map (fun g => (g.hnas.map (fun h => (h.net, h.added)), g.probe)))
    (hi : ∀ g ∈ gs, g.probe = true) : ∀ g ∈ gs', g.probe = true := by
  intro g hg
  have h1 : (g.hnas.map (fun h => (h.net, h.added)), g.probe) ∈ gs.map (fun g => (g.hnas.map (fun h => (h.net, h.added)), g.probe)) := by
    rw [← h]; exact List.mem_map.2 ⟨g, hg, rfl⟩
  obtain ⟨k, hk, he⟩ := List.mem_map.1 h1
  have := hi k hk
  rw [(Prod.mk.inj he).2] at this
  exact this

private theorem probeAt_spec (as : List Bool) : ∀ (i : Nat) (gs : List Grp), shape (probeAt as i gs) = shape gs ∧
    ((probeAt as i gs).map (fun g => g.hnas) = gs.map (fun g => g.hnas))
  | _, [] => by unfold probeAt; exact ⟨rfl, rfl⟩
  | 0, g :: gs => by unfold probeAt; exact ⟨rfl, rfl⟩
  | i + 1, g :: gs => by
    unfold probeAt
    have ih := probeAt_spec as i gs
    constructor
    · have := ih.1
      unfold shape at this ⊢
      rw [List.map_cons, List.map_cons, this]
    · rw [List.map_cons, List.map_cons, ih.2]

private theorem inv_step {e0 : List Net} {sh : List (List Net × List (List Nat))} {s : St} (hd : Distinct (sh.flatMap (fun x => x.1)))
    (h : Inv e0 sh s) (ev : Ev) : Inv e0 sh (step s ev) := by
  obtain ⟨h1, h2, h3, h4⟩ := h
  have hdn : Distinct (nets s.groups) := by rw [nets_shape, h1]; exact hd
  cases ev with
  | tick t =>
    obtain ⟨hs, hm⟩ := shape_update (fib := s.fib) (t := t) hdn
    have hnets : nets (updateRouting s.fib s.groups t) = nets s.groups := by rw [nets_shape, hs, ← nets_shape]
    have hi' : ∀ g ∈ updateRouting s.fib s.groups t, ∀ h ∈ g.hnas, h.net ∈ s.entries ↔ h.added = true :=
      added_of_map (P := fun n a => n ∈ s.entries ↔ a = true) hm h2
    have hsnd := tickGroups_snd (updateRouting s.fib s.groups t) s.entries
    have hmem := tickGroups_mem (updateRouting s.fib s.groups t) s.entries (by rw [hnets]; exact distinct_nodup hdn) hi'
    have hshape : shape (tickGroups s.entries (updateRouting s.fib s.groups t)).2 = shape (updateRouting s.fib s.groups t) := by
      rw [hsnd]; simp [shape, Function.comp_def]
    have hnets2 : nets (tickGroups s.entries (updateRouting s.fib s.groups t)).2 = nets s.groups := by
      rw [nets_shape, hshape, ← nets_shape, hnets]
    refine ⟨?_, ?_, ?_, ?_⟩
    · show shape (tickGroups s.entries (updateRouting s.fib s.groups t)).2 = sh
      rw [hshape, hs, h1]
    · intro g hg h hh
      have hg' : g ∈ (tickGroups s.entries (updateRouting s.fib s.groups t)).2 := hg
      rw [hsnd] at hg'
      obtain ⟨k, hk, rfl⟩ := List.mem_map.1 hg'
      obtain ⟨x, hx, rfl⟩ := List.mem_map.1 hh
      exact hmem k hk x hx
    · show (tickGroups s.entries (updateRouting s.fib s.groups t)).1.filter
        (fun n => !(nets (tickGroups s.entries (updateRouting s.fib s.groups t)).2).contains n) = e0
      rw [hnets2, tickGroups_filter _ _ _ (fun n hn => by rw [hnets] at hn; simp [hn]), h3]
    · intro hp g hg
      have hg' : g ∈ (tickGroups s.entries (updateRouting s.fib s.groups t)).2 := hg
      rw [hsnd] at hg'
      obtain ⟨k, hk, rfl⟩ := List.mem_map.1 hg'
      exact probe_of_map hm (h4 hp) k hk
  | probe i as =>
    by_cases hp : s.ping = true
    · have hse : step s (.probe i as) = { s with groups := probeAt as i s.groups } := by unfold step; simp only []; rw [if_pos hp]
      rw [hse]
      have hsp := probeAt_spec as i s.groups
      refine ⟨hsp.1.trans h1, ?_, ?_, ?_⟩
      · intro g hg h hh
        have : g.hnas ∈ s.groups.map (fun g => g.hnas) := by rw [← hsp.2]; exact List.mem_map.2 ⟨g, hg, rfl⟩
        obtain ⟨k, hk, he⟩ := List.mem_map.1 this
        exact h2 k hk h (by rw [he]; exact hh)
      · show s.entries.filter (fun n => !(nets (probeAt as i s.groups)).contains n) = e0
        rw [nets_shape, hsp.1, ← nets_shape]; exact h3
      · intro hp'; rw [show s.ping = false from hp'] at hp; cases hp
    · have hse : step s (.probe i as) = s := by unfold step; simp only []; rw [if_neg hp]
      rw [hse]; exact ⟨h1, h2, h3, h4⟩

private theorem run_append (s : St) : ∀ a b : List Ev, run s (a ++ b) = run (run s a) b := by
  intro a
  induction a generalizing s with
  | nil => intro b; rfl
  | cons e a ih => intro b; exact ih (step s e) b

private theorem inv_run {e0 : List Net} {sh : List (List Net × List (List Nat))} (hd : Distinct (sh.flatMap (fun x => x.1))) :
    ∀ (evs : List Ev) (s : St), Inv e0 sh s → Inv e0 sh (run s evs)
  | [], _, h => h
  | e :: evs, s, h => inv_run hd evs (step s e) (inv_step hd h e)

private theorem setParam_fresh (ps : List Param) : ∀ gs : List Grp, (∀ g ∈ gs, ∀ h ∈ g.hnas, h.added = false) →
    ∀ g ∈ ps.foldl setParam gs, ∀ h ∈ g.hnas, h.added = false := by
  induction ps with
  | nil => exact fun gs h => h
  | cons p ps ih =>
    intro gs h
    refine ih _ ?_
    cases gs with
    | nil => cases p <;> simp [setParam, mkHn]
    | cons k r =>
      have hk := h k (List.mem_cons_self ..)
      have hr : ∀ g ∈ r, ∀ h ∈ g.hnas, h.added = false := fun g hg => h g (List.mem_cons_of_mem _ hg)
      cases p with
      | ping a =>
        rw [show setParam (k :: r) (.ping a) = if k.hnas ≠ [] then { hnas := [], pings := [a], probe := false } :: k :: r else
          { k with pings := a :: k.pings } :: r from rfl]
        by_cases hn : k.hnas ≠ []
        · rw [if_pos hn]
          intro g hg
          rcases List.mem_cons.1 hg with rfl | hg
          · simp
          · exact h g hg
        · rw [if_neg hn]
          intro g hg
          rcases List.mem_cons.1 hg with rfl | hg
          · exact hk
          · exact hr g hg
      | hna a m =>
        unfold setParam
        intro g hg
        rcases List.mem_cons.1 hg with rfl | hg
        · intro x hx
          rcases List.mem_cons.1 hx with rfl | hx
          · rfl
          · exact hk x hx
        · exact hr g hg
      | bogus => exact h

/-- the groups after the parameters, with the default gateway -/
def confGroups (ps : List Param) : List Grp := withDefault (ps.foldl setParam [])

private theorem conf_fresh (ps : List Param) : ∀ g ∈ confGroups ps, ∀ h ∈ g.hnas, h.added = false := by
  have h := setParam_fresh ps [] (by simp)
  unfold confGroups
  cases hg : ps.foldl setParam [] with
  | nil => simp [withDefault, mkHn]
  | cons k r =>
    rw [hg] at h
    rw [show withDefault (k :: r) = if k.hnas = [] then { k with hnas := [mkHn ([0, 0, 0, 0], 0)] } :: r else k :: r from rfl]
    by_cases hn : k.hnas = []
    · rw [if_pos hn]
      intro g hg
      rcases List.mem_cons.1 hg with rfl | hg
      · simp [mkHn]
      · exact h g (List.mem_cons_of_mem _ hg)
    · rw [if_neg hn]; exact h

private theorem inv_init (ps : List Param) (e0 : List Net) (fib : Int) (t : Option (List Route)) (hd : Distinct (nets (confGroups ps)))
    (hdis : ∀ n ∈ nets (confGroups ps), n ∉ e0) : Inv e0 (shape (confGroups ps)) (init ps e0 fib t) := by
  obtain ⟨hs, hm⟩ := shape_update (fib := fib) (t := t) hd
  have hsh : shape (init ps e0 fib t).groups = shape (confGroups ps) := by
    rw [← hs]
    unfold init shape
    simp only [List.map_map]
    refine List.map_congr_left (fun g _ => ?_)
    simp only [Function.comp_def]
    split <;> rfl
  have hnets : nets (init ps e0 fib t).groups = nets (confGroups ps) := by rw [nets_shape, hsh, ← nets_shape]
  refine ⟨hsh, ?_, ?_, ?_⟩
  · intro g hg h hh
    have hin : h.net ∈ nets (confGroups ps) := by
      rw [← hnets]; exact List.mem_flatMap.2 ⟨g, hg, List.mem_map.2 ⟨h, hh, rfl⟩⟩
    have hne : h.net ∉ (init ps e0 fib t).entries := hdis _ hin
    have hadd : h.added = false := by
      obtain ⟨k, hk, he⟩ := List.mem_map.1 (show g ∈ List.map _ _ from hg)
      have hkh : h ∈ k.hnas := by
        rw [← he] at hh
        revert hh
        split <;> exact fun h => h
      exact added_of_map (P := fun _ a => a = false) hm (conf_fresh ps) k hk h hkh
    simp [hadd, hne]
  · show e0.filter (fun n => !(nets (init ps e0 fib t).groups).contains n) = e0
    rw [hnets, List.filter_eq_self]
    intro n hn
    simp only [Bool.not_eq_true', List.contains_eq_mem, decide_eq_false_iff_not]
    exact fun h => hdis n h hn
  · intro hp g hg
    have hp' : pingMode ps = false := hp
    obtain ⟨k, _, he⟩ := List.mem_map.1 (show g ∈ List.map _ _ from hg)
    rw [hp'] at he
    rw [← he]; rfl

private theorem tick_active {fib : Int} {gs : List Grp} {rs : List Route} (hd : Distinct (nets gs)) :
    ∀ g ∈ updateRouting fib gs (some rs), ∀ h ∈ g.hnas, h.active = present fib rs h.net := by
  intro g hg h hh
  have ht := (C139_table fib gs rs hd).1
  have h1 : (g.hnas.map (fun h => (h.net, h.added, h.active)), g.pings, g.probe) ∈
      gs.map (fun g => (g.hnas.map (fun h => (h.net, h.added, present fib rs h.net)), g.pings, g.probe)) := by
    rw [← ht]; exact List.mem_map.2 ⟨g, hg, rfl⟩
  obtain ⟨k, _, he⟩ := List.mem_map.1 h1
  have h2 : (h.net, h.added, h.active) ∈ k.hnas.map (fun h => (h.net, h.added, present fib rs h.net)) := by
    rw [(Prod.mk.inj he).1]; exact List.mem_map.2 ⟨h, hh, rfl⟩
  obtain ⟨y, _, hye⟩ := List.mem_map.1 h2
  simp only [Prod.mk.injEq] at hye
  rw [← hye.2.2, hye.1]

private theorem run_fib : ∀ (evs : List Ev) (s : St), (run s evs).fib = s.fib
  | [], _ => rfl
  | e :: evs, s => by
    rw [run, run_fib evs]
    cases e with
    | tick t => rfl
    | probe i as => unfold step; simp only []; split <;> rfl

private theorem run_ping : ∀ (evs : List Ev) (s : St), (run s evs).ping = s.ping
  | [], _ => rfl
  | e :: evs, s => by
    rw [run, run_ping evs]
    cases e with
    | tick t => rfl
    | probe i as => unfold step; simp only []; split <;> rfl

/-- **The entries.**  If no two networks of the plugin are the same and none is among the HNA entries already, then in every
history: the entries of others stay as they are, and after each run of the timer function that could read the
routing table a network of a group is announced exactly if the table holds a route to it and the last verdict on the pings of
its group is good. -/
theorem C139_announced_partial (ps : List Param) (e0 : List Net) (fib : Int) (t0 : Option (List Route)) (evs : List Ev) (rs : List Route)
    (hd : Distinct (nets (confGroups ps))) (hdis : ∀ n ∈ nets (confGroups ps), n ∉ e0) :
    let s := run (init ps e0 fib t0) (evs ++ [.tick (some rs)])
    s.entries.filter (fun n => !(nets (confGroups ps)).contains n) = e0 ∧
    nets s.groups = nets (confGroups ps) ∧
    ∀ g ∈ s.groups, ∀ h ∈ g.hnas, h.net ∈ s.entries ↔ (present fib rs h.net = true ∧ g.probe = true) := by
  have hd' : Distinct ((shape (confGroups ps)).flatMap (fun x => x.1)) := by rw [← nets_shape]; exact hd
  have hi := inv_run hd' evs _ (inv_init ps e0 fib t0 hd hdis)
  have hi2 := inv_step hd' hi (.tick (some rs))
  intro s
  have hs : s = step (run (init ps e0 fib t0) evs) (.tick (some rs)) := run_append _ evs [.tick (some rs)]
  rw [← hs] at hi2
  have hnets : nets s.groups = nets (confGroups ps) := by rw [nets_shape, hi2.1, ← nets_shape]
  refine ⟨by rw [← hnets]; exact hi2.2.2.1, hnets, ?_⟩
  intro g hg h hh
  rw [hi2.2.1 g hg h hh]
  have hfib : (run (init ps e0 fib t0) evs).fib = fib := run_fib evs _
  have hdn : Distinct (nets (run (init ps e0 fib t0) evs).groups) := by rw [nets_shape, hi.1]; exact hd'
  have hg' : g ∈ (tickGroups (run (init ps e0 fib t0) evs).entries
      (updateRouting (run (init ps e0 fib t0) evs).fib (run (init ps e0 fib t0) evs).groups (some rs))).2 := by
    rw [hs] at hg; exact hg
  rw [tickGroups_snd, hfib] at hg'
  obtain ⟨k, hk, rfl⟩ := List.mem_map.1 hg'
  obtain ⟨x, hx, rfl⟩ := List.mem_map.1 hh
  simp only [Bool.and_eq_true, tick_active hdn k hk x hx]
  exact And.comm

/-- Without `ping` parameters it is the routing table alone that decides. -/
theorem C139_no_ping (ps : List Param) (e0 : List Net) (fib : Int) (t0 : Option (List Route)) (evs : List Ev) (rs : List Route)
    (hd : Distinct (nets (confGroups ps))) (hdis : ∀ n ∈ nets (confGroups ps), n ∉ e0) (hp : ∀ a, Param.ping a ∉ ps) :
    ∀ n, n ∈ (run (init ps e0 fib t0) (evs ++ [.tick (some rs)])).entries ↔
      n ∈ e0 ∨ (n ∈ nets (confGroups ps) ∧ present fib rs n = true) := by
  have hpm : pingMode ps = false := by
    have : ∀ ps : List Param, (∀ a, Param.ping a ∉ ps) → pingMode ps = false := by
      intro ps
      induction ps with
      | nil => intro _; rfl
      | cons p ps ih =>
        intro h
        cases p with
        | ping a => exact absurd (List.mem_cons_self ..) (h a)
        | hna a m => exact ih (fun b hb => h b (List.mem_cons_of_mem _ hb))
        | bogus => exact ih (fun b hb => h b (List.mem_cons_of_mem _ hb))
    exact this ps hp
  have hd' : Distinct ((shape (confGroups ps)).flatMap (fun x => x.1)) := by rw [← nets_shape]; exact hd
  have hi := inv_run hd' (evs ++ [.tick (some rs)]) _ (inv_init ps e0 fib t0 hd hdis)
  have hpr := hi.2.2.2 (by rw [run_ping]; exact hpm)
  obtain ⟨h1, h2, h3⟩ := C139_announced_partial ps e0 fib t0 evs rs hd hdis
  intro n
  by_cases hn : n ∈ nets (confGroups ps)
  · rw [← h2] at hn
    obtain ⟨g, hg, hh⟩ := List.mem_flatMap.1 hn
    obtain ⟨h, hx, rfl⟩ := List.mem_map.1 hh
    rw [h3 g hg h hx, hpr g hg]
    rw [h2] at hn
    simp [hn, hdis _ hn]
  · have : n ∈ (run (init ps e0 fib t0) (evs ++ [.tick (some rs)])).entries ↔ n ∈ e0 := by
      have hf : n ∈ (run (init ps e0 fib t0) (evs ++ [.tick (some rs)])).entries.filter (fun n => !(nets (confGroups ps)).contains n) ↔
          n ∈ (run (init ps e0 fib t0) (evs ++ [.tick (some rs)])).entries := by
        rw [List.mem_filter]; simp [hn]
      rw [h1] at hf
      exact hf.symm
    rw [this]
    simp [hn]

/-- one network in the table, one not; an entry of the configuration -/
example : (run (init [.hna [10, 0, 0, 0] [255, 0, 0, 0], .hna [192, 168, 0, 0] [255, 255, 0, 0]] [([1, 2, 3, 4], 32)] 2 none)
    [.tick (some [⟨[10, 0, 0, 0], [255, 0, 0, 0], true, 0⟩]), .tick none,
     .tick (some [⟨[10, 0, 0, 0], [255, 0, 0, 0], true, 2⟩, ⟨[192, 168, 0, 0], [255, 255, 0, 0], true, 0⟩])]).entries =
    [([192, 168, 0, 0], 16), ([1, 2, 3, 4], 32)] := by decide +kernel

private theorem unprobed_run : ∀ (ts : List (Option (List Route))) (s : St), Distinct (nets s.groups) → (∀ g ∈ s.groups, g.probe = false) →
    ∀ g ∈ (run s (ts.map Ev.tick)).groups, g.probe = false
  | [], _, _, h => h
  | t :: ts, s, hd, h => by
    have hu := shape_update (fib := s.fib) (t := t) hd
    have hsnd := tickGroups_snd (updateRouting s.fib s.groups t) s.entries
    refine unprobed_run ts (step s (.tick t)) ?_ ?_
    · have : nets (step s (.tick t)).groups = nets s.groups := by
        show nets (tickGroups s.entries (updateRouting s.fib s.groups t)).2 = nets s.groups
        rw [nets_shape, hsnd, nets_shape, ← hu.1]
        simp [shape, Function.comp_def]
      rw [this]; exact hd
    · intro g hg
      have hg' : g ∈ (tickGroups s.entries (updateRouting s.fib s.groups t)).2 := hg
      rw [hsnd] at hg'
      obtain ⟨k, hk, rfl⟩ := List.mem_map.1 hg'
      have h1 : (k.hnas.map (fun h => (h.net, h.added)), k.probe) ∈ s.groups.map (fun g => (g.hnas.map (fun h => (h.net, h.added)), g.probe)) := by
        rw [← hu.2]; exact List.mem_map.2 ⟨k, hk, rfl⟩
      obtain ⟨x, hx, he⟩ := List.mem_map.1 h1
      have := h x hx
      rw [(Prod.mk.inj he).2] at this
      exact this

private theorem conf_probe (ps : List Param) : ∀ g ∈ confGroups ps, g.probe = false := by
  have hset : ∀ (ps : List Param) (gs : List Grp), (∀ g ∈ gs, g.probe = false) → ∀ g ∈ ps.foldl setParam gs, g.probe = false := by
    intro ps
    induction ps with
    | nil => exact fun gs h => h
    | cons p ps ih =>
      intro gs h
      refine ih _ ?_
      cases gs with
      | nil => cases p <;> simp [setParam]
      | cons k r =>
        have hk := h k (List.mem_cons_self ..)
        have hr : ∀ g ∈ r, g.probe = false := fun g hg => h g (List.mem_cons_of_mem _ hg)
        cases p with
        | ping a => by_cases hn : k.hnas = [] <;> simpa [setParam, hn, hk] using hr
        | hna a m => simpa [setParam, hk] using hr
        | bogus => exact h
  have h := hset ps [] (by simp)
  unfold confGroups
  cases hg : ps.foldl setParam [] with
  | nil => simp [withDefault]
  | cons k r =>
    rw [hg] at h
    have hk := h k (List.mem_cons_self ..)
    have hr : ∀ g ∈ r, g.probe = false := fun g hg => h g (List.mem_cons_of_mem _ hg)
    by_cases hn : k.hnas = [] <;> simpa [withDefault, hn, hk] using hr

/-- With a `ping` parameter nothing is announced before the first checks, not even a network whose group has no pings. -/
theorem C139_unprobed (ps : List Param) (e0 : List Net) (fib : Int) (t0 : Option (List Route)) (ts : List (Option (List Route)))
    (hd : Distinct (nets (confGroups ps))) (hdis : ∀ n ∈ nets (confGroups ps), n ∉ e0) (a : List Nat) (hp : .ping a ∈ ps)
    (rs : List Route) : (run (init ps e0 fib t0) ((ts ++ [some rs]).map .tick)).entries = e0 := by
  have hpm : pingMode ps = true := by
    clear hd hdis
    induction ps with
    | nil => cases hp
    | cons p ps ih =>
      cases p with
      | ping b => rfl
      | hna b m => exact ih (by rcases List.mem_cons.1 hp with h | h; cases h; exact h)
      | bogus => exact ih (by rcases List.mem_cons.1 hp with h | h; cases h; exact h)
  have hinit : (init ps e0 fib t0).groups = updateRouting fib (confGroups ps) t0 := by
    unfold init
    simp only [hpm, if_true, List.map_id']
    rfl
  have hu := shape_update (fib := fib) (t := t0) hd
  have hdi : Distinct (nets (init ps e0 fib t0).groups) := by rw [hinit, nets_shape, hu.1, ← nets_shape]; exact hd
  have hpi : ∀ g ∈ (init ps e0 fib t0).groups, g.probe = false := by
    intro g hg
    rw [hinit] at hg
    have h1 : (g.hnas.map (fun h => (h.net, h.added)), g.probe) ∈ (confGroups ps).map (fun g => (g.hnas.map (fun h => (h.net, h.added)), g.probe)) := by
      rw [← hu.2]; exact List.mem_map.2 ⟨g, hg, rfl⟩
    obtain ⟨x, hx, he⟩ := List.mem_map.1 h1
    have := conf_probe ps x hx
    rw [(Prod.mk.inj he).2] at this
    exact this
  have hpr := unprobed_run (ts ++ [some rs]) _ hdi hpi
  rw [List.map_append] at hpr ⊢
  obtain ⟨h1, h2, h3⟩ := C139_announced_partial ps e0 fib t0 (ts.map .tick) rs hd hdis
  rw [← List.map_singleton (f := Ev.tick) (a := some rs)] at h1 h2 h3
  have hall : ∀ n ∈ (run (init ps e0 fib t0) (ts.map .tick ++ [some rs].map .tick)).entries,
      (!(nets (confGroups ps)).contains n) = true := by
    intro n hn
    cases hc : (nets (confGroups ps)).contains n
    · rfl
    · exfalso
      rw [List.contains_iff_mem, ← h2] at hc
      obtain ⟨g, hg, hh⟩ := List.mem_flatMap.1 hc
      obtain ⟨h, hx, rfl⟩ := List.mem_map.1 hh
      have := (h3 g hg h hx).1 hn
      rw [hpr g hg] at this
      exact absurd this.2 (by decide)
  rw [List.filter_eq_self.2 hall] at h1
  exact h1

example : (run (init [.hna [10, 0, 0, 0] [255, 0, 0, 0], .ping [8, 8, 8, 8]] [] 2 none)
    [.tick (some [⟨[10, 0, 0, 0], [255, 0, 0, 0], true, 0⟩])]).entries = [] ∧
    (run (init [.hna [10, 0, 0, 0] [255, 0, 0, 0], .ping [8, 8, 8, 8]] [] 2 none)
    [.tick (some [⟨[10, 0, 0, 0], [255, 0, 0, 0], true, 0⟩]), .probe 1 [], .tick (some [⟨[10, 0, 0, 0], [255, 0, 0, 0], true, 0⟩])]).entries =
      [([10, 0, 0, 0], 8)] := by decide +kernel

/-- **The default gateway.**  Every group has a network; if the last `ping` parameters have none, or if there are no parameters,
it is 0.0.0.0/0. -/
theorem C139_default (ps : List Param) :
    (∀ g ∈ confGroups ps, g.hnas ≠ []) ∧
    (nets (confGroups ps) = nets (ps.foldl setParam []) ∨
      (nets (confGroups ps) = ([0, 0, 0, 0], 0) :: nets (ps.foldl setParam []) ∧ ∀ a m, ps.getLast? ≠ some (.hna a m))) := by
  have hset : ∀ (ps : List Param) (gs : List Grp), (∀ g ∈ gs.tail, g.hnas ≠ []) → ∀ g ∈ (ps.foldl setParam gs).tail, g.hnas ≠ [] := by
    intro ps
    induction ps with
    | nil => exact fun gs h => h
    | cons p ps ih =>
      intro gs h
      refine ih _ ?_
      cases gs with
      | nil => cases p <;> simp [setParam]
      | cons k r =>
        cases p with
        | ping a =>
          by_cases hn : k.hnas = []
          · simpa [setParam, hn] using h
          · simpa [setParam, hn] using h
        | hna a m => exact h
        | bogus => exact h
  have h := hset ps [] (by simp)
  have hl : ∀ a m, ps.getLast? = some (.hna a m) → ∀ k r, ps.foldl setParam [] = k :: r → k.hnas ≠ [] := by
    intro a m hl k r hk
    obtain ⟨l, hl⟩ := List.getLast?_eq_some_iff.1 hl
    rw [hl, List.foldl_append, List.foldl_cons, List.foldl_nil] at hk
    cases hg : l.foldl setParam [] with
    | nil => rw [hg] at hk; simp only [setParam, List.cons.injEq] at hk; rw [← hk.1]; simp
    | cons g gs => rw [hg] at hk; simp only [setParam, List.cons.injEq] at hk; rw [← hk.1]; simp
  unfold confGroups
  cases hg : ps.foldl setParam [] with
  | nil =>
    refine ⟨by simp [withDefault], Or.inr ⟨rfl, ?_⟩⟩
    intro a m he
    obtain ⟨l, hl⟩ := List.getLast?_eq_some_iff.1 he
    rw [hl, List.foldl_append, List.foldl_cons, List.foldl_nil] at hg
    cases hg2 : l.foldl setParam [] with
    | nil => rw [hg2] at hg; simp [setParam] at hg
    | cons g gs => rw [hg2] at hg; simp [setParam] at hg
  | cons k r =>
    rw [hg] at h
    by_cases hn : k.hnas = []
    · refine ⟨by simpa [withDefault, hn] using h, Or.inr ⟨by simp [withDefault, hn, nets, mkHn], ?_⟩⟩
      intro a m he
      exact hl a m he k r hg hn
    · refine ⟨by simpa [withDefault, hn] using h, Or.inl (by simp [withDefault, hn])⟩

example : nets (confGroups []) = [([0, 0, 0, 0], 0)] ∧
    nets (confGroups [.hna [10, 0, 0, 0] [255, 0, 0, 0], .ping [8, 8, 8, 8]]) = [([0, 0, 0, 0], 0), ([10, 0, 0, 0], 8)] := by decide +kernel

/-- **An entry of the configuration** with the same network is taken away with that of the plugin. -/
theorem C139_static (n : Net) (es : List Net) (hs : List Hn) (p : Bool) (h : Hn) (hn : h.net = n) (ha : h.added = true)
    (hc : p = false ∨ h.active = false) (hno : ∀ x ∈ hs, x.net ≠ n) : n ∉ (tickHnas p es (h :: hs)).1 := by
  unfold tickHnas
  rw [if_neg (by rw [ha]; decide), if_pos hc]
  simp only []
  rw [mem_of_filter (tickHnas_filter p (fun e => e == n) hs _ (fun x hx => by simpa using hno x hx))]
  simp [hn]

example : (run (init [.hna [10, 0, 0, 0] [255, 0, 0, 0]] [([10, 0, 0, 0], 8)] 2 none)
    [.tick (some [⟨[10, 0, 0, 0], [255, 0, 0, 0], true, 0⟩]), .tick (some [])]).entries = [] := by decide +kernel

/-! ### The pings -/

/-- the number of networks of a group that are active -/
def actives (hs : List Hn) : Nat := (hs.filter (fun h => h.active)).length

private theorem probe_none (pings : List (List Nat)) : ∀ (hs : List Hn) (as : List Bool) (p : Bool), ¬ 0 < actives hs →
    probeLoop pings hs as p = p
  | [], _, _, _ => rfl
  | y :: ys, as, p, hy => by
    by_cases hya : y.active = true
    · exact absurd (by simp [actives, hya]) hy
    · unfold probeLoop
      rw [if_neg hya]
      exact probe_none pings ys as p (by simpa [actives, hya] using hy)

/-- **The verdict on the pings.**  With a network in the table, a group is good after its checks exactly if it has no pings, or
one of the checks was answered (one check for each network in the table, until the first answer). -/
theorem C139_verdict_partial (pings : List (List Nat)) : ∀ (hs : List Hn) (as : List Bool) (p : Bool), 0 < actives hs →
    probeLoop pings hs as p = (pings == [] || (as.take (actives hs)).contains true)
  | [], _, _, h => by simp [actives] at h
  | x :: hs, as, p, h => by
    unfold probeLoop
    by_cases hx : x.active = true
    · have ha : actives (x :: hs) = actives hs + 1 := by simp [actives, hx]
      rw [if_pos hx, ha]
      by_cases hp : pings = []
      · rw [if_pos (Or.inl hp)]; simp [hp]
      · have hpb : (pings == []) = false := by simpa using hp
        cases as with
        | nil =>
          rw [if_neg (by simp [hp])]
          by_cases h0 : 0 < actives hs
          · rw [List.tail_nil, C139_verdict_partial pings hs [] false h0]; simp [hpb]
          · rw [probe_none pings hs _ _ h0]; simp [hpb]
        | cons a as =>
          by_cases haa : a = true
          · rw [if_pos (Or.inr (by simpa using haa))]; simp [haa]
          · rw [if_neg (by simp [hp, haa])]
            have haf : a = false := by cases a <;> simp_all
            by_cases h0 : 0 < actives hs
            · rw [List.tail_cons, C139_verdict_partial pings hs as false h0]; simp [hpb, haf]
            · rw [probe_none pings hs _ _ h0]
              have : actives hs = 0 := by omega
              simp [hpb, haf, this]
    · have ha : actives (x :: hs) = actives hs := by simp [actives, hx]
      rw [if_neg hx, ha]
      exact C139_verdict_partial pings hs as p (by rw [← ha]; exact h)

/-- Without a network in the table the old verdict stays. -/
theorem C139_verdict_stale (pings : List (List Nat)) : ∀ (hs : List Hn) (as : List Bool) (p : Bool), (∀ h ∈ hs, h.active = false) →
    probeLoop pings hs as p = p
  | [], _, _, _ => rfl
  | x :: hs, as, p, h => by
    unfold probeLoop
    rw [if_neg (by rw [h x (List.mem_cons_self ..)]; decide)]
    exact C139_verdict_stale pings hs as p (fun y hy => h y (List.mem_cons_of_mem _ hy))

/-- So a network is announced again as soon as its route is back, although the host has not answered any more: the route
comes, the host answers, the route goes, the check is not done, the route comes. -/
theorem C139_stale :
    (run (init [.ping [8, 8, 8, 8]] [] 2 none)
      [.tick (some [⟨[0, 0, 0, 0], [0, 0, 0, 0], true, 0⟩]), .probe 0 [true], .tick (some []), .probe 0 [false],
       .tick (some [⟨[0, 0, 0, 0], [0, 0, 0, 0], true, 0⟩])]).entries = [([0, 0, 0, 0], 0)] := by decide +kernel

example : probeLoop [[8, 8, 8, 8]] [⟨([10, 0, 0, 0], 8), false, true, true⟩, ⟨([0, 0, 0, 0], 0), false, true, true⟩] [false, true] false = true ∧
    actives [⟨([10, 0, 0, 0], 8), false, true, true⟩, ⟨([0, 0, 0, 0], 0), false, true, true⟩] = 2 := by decide +kernel

end Verif.DynGw
