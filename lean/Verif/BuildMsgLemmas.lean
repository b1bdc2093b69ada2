import Verif.BuildMsgModel

/-! Helper lemmas about the generation of MID and HNA messages. -/
namespace Verif.BuildMsg

/-- The messages made of the given groups of items, with consecutive sequence numbers from `seq`. -/
def sealed (ty vtime : Nat) (main : List Nat) : Nat → List (List (List Nat)) → List (List Nat)
  | _, [] => []
  | seq, c :: cs => message ty vtime main seq c.flatten :: sealed ty vtime main ((seq + 1) % 65536) cs

theorem hdr_eq (v6 : Bool) : hdr v6 = 8 + ipsize v6 := by cases v6 <;> rfl

theorem message_length (ty vtime : Nat) (main : List Nat) (seq : Nat) (p : List Nat) :
    (message ty vtime main seq p).length = 8 + main.length + p.length := by
  simp only [message, TcPkt.be16, List.length_append, List.length_cons, List.length_nil]
  omega

/-- room in the empty buffer -/
def room (o : Out) : Nat := if o.max > 1228 then 1228 else o.max

theorem left_output (o : Out) : left (output o) = room o := by
  unfold left output room; simp only [Nat.sub_zero]

theorem left_le_room (o : Out) : left o ≤ room o := by
  unfold left room
  split <;> split <;> omega

/-- what holds of a generator between two items -/
structure Inv (v6 : Bool) (main : List Nat) (g : Gen) : Prop where
  rem : g.rem = left g.out
  fits : currSize v6 g ≤ g.rem

theorem emit_ok {v6 : Bool} {main : List Nat} {g : Gen} (ty vtime : Nat) (hm : main.length = ipsize v6)
    (hp : g.out.pend ≤ g.out.max) (hi : Inv v6 main g) :
    (emit ty vtime main g).out.msgs = g.out.msgs ++ [message ty vtime main g.seq g.cur.flatten] ∧
    (emit ty vtime main g).out.max = g.out.max ∧
    (emit ty vtime main g).out.pend ≤ g.out.max := by
  have h1 := hi.fits
  have h2 := hi.rem
  have h3 : left g.out ≤ g.out.max - g.out.pend := by unfold left; split <;> omega
  have hl : (message ty vtime main g.seq g.cur.flatten).length = currSize v6 g := by
    rw [message_length, currSize, hdr_eq, hm]
  have hn : ¬ g.out.pend + (message ty vtime main g.seq g.cur.flatten).length > g.out.max := by
    rw [hl]; omega
  simp only [emit, push, if_neg hn]
  refine ⟨trivial, trivial, ?_⟩
  rw [hl]; omega

theorem addItems_ok {v6 : Bool} {main : List Nat} (ty vtime chk k : Nat) (hm : main.length = ipsize v6)
    (hk : 0 < k) (hc : chk ≤ k) (xs : List (List Nat)) :
    ∀ g : Gen, (∀ x ∈ xs, x.length = k) → (∀ x ∈ g.cur, x.length = k) → Inv v6 main g →
    g.out.pend ≤ g.out.max → hdr v6 + k ≤ room g.out → g.seq < 65536 →
    ∃ g' chs, addItems v6 ty vtime main chk g xs = .ok g' ∧ Inv v6 main g' ∧ g'.out.pend ≤ g'.out.max ∧
      g'.out.max = g.out.max ∧
      g'.out.msgs = g.out.msgs ++ sealed ty vtime main g.seq chs ∧
      g'.seq = (g.seq + chs.length) % 65536 ∧
      chs.flatten ++ g'.cur = g.cur ++ xs ∧ (∀ c ∈ chs, c ≠ [] ∧ hdr v6 + c.flatten.length ≤ room g.out) ∧
      (g'.cur = [] → g.cur = [] ∧ xs = []) := by
  induction xs with
  | nil =>
    intro g _ _ hi hp _ hs
    refine ⟨g, [], rfl, hi, hp, rfl, ?_, ?_, ?_, ?_, ?_⟩
    · simp [sealed]
    · simp; omega
    · simp
    · intro c hc; cases hc
    · intro h; exact ⟨h, rfl⟩
  | cons x xs ih =>
    intro g hx hg hi hp hr hs
    have hxl : x.length = k := hx x (List.mem_cons_self ..)
    have hx' : ∀ y ∈ xs, y.length = k := fun y hy => hx y (List.mem_cons_of_mem _ hy)
    by_cases hbig : currSize v6 g + x.length > g.rem
    · -- the buffer is sent first
      by_cases hcur : currSize v6 g > hdr v6
      · obtain ⟨e1, e2, e3⟩ := emit_ok ty vtime hm hp hi
        have hcs : currSize v6 (emit ty vtime main g) = hdr v6 := by simp [currSize, emit]
        have hroom : room (emit ty vtime main g).out = room g.out := by unfold room; rw [e2]
        have hstep : addItem v6 ty vtime main chk g x = .ok { out := output (emit ty vtime main g).out, rem := room g.out, cur := [x], seq := (g.seq + 1) % 65536 } := by
          unfold addItem
          rw [if_pos hbig]
          simp only [if_pos hcur, left_output, hroom]
          rw [hcs, if_neg (by omega)]
          simp [emit]
        obtain ⟨g', chs, h⟩ := ih { out := output (emit ty vtime main g).out, rem := room g.out, cur := [x], seq := (g.seq + 1) % 65536 } hx'
          (by intro y hy; simp at hy; rw [hy]; exact hxl)
          ⟨by simp only [left_output, hroom], by simp only [currSize, List.flatten_cons, List.flatten_nil, List.append_nil]; omega⟩
          (by simp [output])
          (by show hdr v6 + k ≤ room (output (emit ty vtime main g).out)
              have : room (output (emit ty vtime main g).out) = room (emit ty vtime main g).out := rfl
              rw [this, hroom]; exact hr)
          (Nat.mod_lt _ (by omega))
        · obtain ⟨h1, h2, h3, h4, h5, h6, h7, h8, h9⟩ := h
          refine ⟨g', g.cur :: chs, ?_, h2, h3, ?_, ?_, ?_, ?_, ?_, ?_⟩
          · rw [addItems, hstep]; exact h1
          · rw [h4]; exact e2
          · rw [h5]
            show (emit ty vtime main g).out.msgs ++ _ = _
            rw [e1]; simp [sealed]
          · rw [h6, List.length_cons]
            show ((g.seq + 1) % 65536 + chs.length) % 65536 = _
            omega
          · simp only [List.flatten_cons, List.append_assoc]
            rw [h7]; simp
          · intro c hc
            rcases List.mem_cons.1 hc with rfl | hc
            · constructor
              · intro hnil; simp [currSize, hnil] at hcur
              · have h1 := hi.fits
                have h2 := hi.rem
                have h3 := left_le_room g.out
                unfold currSize at h1; omega
            · have := h8 c hc
              refine ⟨this.1, ?_⟩
              have h9 : room (output (emit ty vtime main g).out) = room g.out := by
                rw [← hroom]; rfl
              rw [← h9]; exact this.2
          · intro hn; have := (h9 hn).1; simp at this
      · have hnil : g.cur = [] := by
          cases hc : g.cur with
          | nil => rfl
          | cons y ys =>
            exfalso
            apply hcur
            have := hg y (by rw [hc]; exact List.mem_cons_self ..)
            simp only [currSize, hc, List.flatten_cons, List.length_append]
            omega
        have hcs : currSize v6 g = hdr v6 := by simp [currSize, hnil]
        have hstep : addItem v6 ty vtime main chk g x = .ok { out := output g.out, rem := room g.out, cur := [x], seq := g.seq } := by
          unfold addItem
          rw [if_pos hbig]
          simp only [if_neg hcur, left_output]
          rw [hcs, if_neg (by omega)]
          simp [hnil]
        obtain ⟨g', chs, h⟩ := ih { out := output g.out, rem := room g.out, cur := [x], seq := g.seq } hx'
          (by intro y hy; simp at hy; rw [hy]; exact hxl)
          ⟨by simp only [left_output], by simp only [currSize, List.flatten_cons, List.flatten_nil, List.append_nil]; omega⟩
          (by simp [output]) hr hs
        · obtain ⟨h1, h2, h3, h4, h5, h6, h7, h8, h9⟩ := h
          refine ⟨g', chs, ?_, h2, h3, h4, h5, h6, ?_, h8, ?_⟩
          · rw [addItems, hstep]; exact h1
          · rw [h7, hnil]; simp
          · intro hn; have := (h9 hn).1; simp at this
    · have hstep : addItem v6 ty vtime main chk g x = .ok { g with cur := g.cur ++ [x] } := by
        unfold addItem
        rw [if_neg hbig]
      obtain ⟨g', chs, h⟩ := ih { g with cur := g.cur ++ [x] } hx'
        (by intro y hy; rcases List.mem_append.1 hy with hy | hy
            · exact hg y hy
            · simp at hy; rw [hy]; exact hxl)
        ⟨hi.rem, by
          have : currSize v6 { g with cur := g.cur ++ [x] } = currSize v6 g + x.length := by
            simp only [currSize, List.flatten_append, List.length_append, List.flatten_cons, List.flatten_nil, List.append_nil]; omega
          rw [this]; show _ ≤ g.rem; omega⟩ hp hr hs
      · obtain ⟨h1, h2, h3, h4, h5, h6, h7, h8, h9⟩ := h
        refine ⟨g', chs, ?_, h2, h3, h4, h5, h6, ?_, h8, ?_⟩
        · rw [addItems, hstep]; exact h1
        · rw [h7]; simp
        · intro hn; have := (h9 hn).1; simp at this

theorem need_ge (v6 : Bool) (n : Nat) (hn : v6 = true ∨ n % 8192 ≠ 8191) :
    hdr v6 ≤ (hdr v6 + n * (2 * ipsize v6)) % 65536 := by
  cases v6
  · rcases hn with hn | hn
    · cases hn
    · show 12 ≤ (12 + n * 8) % 65536
      omega
  · show 24 ≤ (24 + n * 32) % 65536
    omega

theorem start_ok (v6 : Bool) (n : Nat) (o : Out) (seq : Nat) (hp : o.pend ≤ o.max)
    (hn : v6 = true ∨ n % 8192 ≠ 8191) (hr : hdr v6 ≤ room o) (main : List Nat) :
    ∃ o', start v6 n o seq = .ok { out := o', rem := left o', cur := [], seq } ∧
      o'.msgs = o.msgs ∧ o'.max = o.max ∧ o'.pend ≤ o'.max ∧
      Inv v6 main { out := o', rem := left o', cur := [], seq } := by
  have hsz := need_ge v6 n hn
  unfold start
  by_cases h : (hdr v6 + n * (2 * ipsize v6)) % 65536 > left o
  · simp only [if_pos h, left_output]
    rw [if_neg (by omega)]
    refine ⟨output o, ?_, rfl, rfl, by simp [output], ⟨rfl, ?_⟩⟩
    · rw [left_output]
    · simp only [currSize, List.flatten_nil, List.length_nil, left_output]; omega
  · simp only [if_neg h]
    have hle : hdr v6 ≤ left o := by omega
    rw [if_neg (by omega)]
    refine ⟨o, rfl, rfl, rfl, hp, ⟨rfl, ?_⟩⟩
    simp only [currSize, List.flatten_nil, List.length_nil]; omega

theorem sealed_append (ty vtime : Nat) (main : List Nat) (c : List (List Nat)) (chs : List (List (List Nat))) :
    ∀ seq, seq < 65536 → sealed ty vtime main seq (chs ++ [c]) =
      sealed ty vtime main seq chs ++ [message ty vtime main ((seq + chs.length) % 65536) c.flatten] := by
  induction chs with
  | nil => intro seq h; simp [sealed, Nat.mod_eq_of_lt h]
  | cons x xs ih =>
    intro seq h
    simp only [List.cons_append, sealed, List.length_cons]
    rw [ih _ (Nat.mod_lt _ (by omega))]
    have e : ((seq + 1) % 65536 + xs.length) % 65536 = (seq + (xs.length + 1)) % 65536 := by omega
    rw [e]

/-- from a list of items to the messages: the groups that are sent -/
theorem groups_ok {v6 : Bool} {main : List Nat} (ty vtime chk k n seq : Nat) (o : Out) (xs : List (List Nat))
    (hm : main.length = ipsize v6) (hk : 0 < k) (hc : chk ≤ k) (hx : ∀ x ∈ xs, x.length = k)
    (hp : o.pend ≤ o.max) (hn : v6 = true ∨ n % 8192 ≠ 8191) (hr : hdr v6 + k ≤ room o) (hs : seq < 65536) :
    ∃ g g' chs, start v6 n o seq = .ok g ∧ addItems v6 ty vtime main chk g xs = .ok g' ∧
      g'.seq = (seq + chs.length) % 65536 ∧
      g'.out.msgs = o.msgs ++ sealed ty vtime main seq chs ∧
      (emit ty vtime main g').out.msgs = o.msgs ++ sealed ty vtime main seq (chs ++ [g'.cur]) ∧
      g'.out.max = o.max ∧ (emit ty vtime main g').out.max = o.max ∧
      chs.flatten ++ g'.cur = xs ∧ (g'.cur = [] → xs = []) ∧
      (∀ c ∈ chs ++ [g'.cur], hdr v6 + c.flatten.length ≤ room o) ∧
      (∀ c ∈ chs, c ≠ []) ∧ (currSize v6 g' > hdr v6 ↔ g'.cur ≠ []) ∧
      (emit ty vtime main g').out.pend ≤ o.max := by
  obtain ⟨o', h1, h2, h3, h4, h5⟩ := start_ok v6 n o seq hp hn (by omega) main
  have hroom : room o' = room o := by unfold room; rw [h3]
  obtain ⟨g', chs, i1, i2, i3, i4, i5, i6, i7, i8, i9⟩ :=
    addItems_ok ty vtime chk k hm hk hc xs { out := o', rem := left o', cur := [], seq } hx
      (fun y hy => by cases hy) h5 h4 (by show hdr v6 + k ≤ room o'; rw [hroom]; exact hr) hs
  obtain ⟨e1, e2, e3⟩ := emit_ok ty vtime hm i3 i2
  have i5' : g'.out.msgs = o.msgs ++ sealed ty vtime main seq chs := by rw [i5, ← h2]
  refine ⟨_, g', chs, h1, i1, i6, i5', ?_, ?_, ?_, ?_, ?_, ?_, ?_, ?_, ?_⟩
  · rw [e1, i5', sealed_append _ _ _ _ _ _ hs, List.append_assoc, i6]
  · rw [i4]; exact h3
  · rw [e2, i4]; exact h3
  · rw [i7]; rfl
  · intro h; exact (i9 h).2
  · intro c hc
    rcases List.mem_append.1 hc with hc | hc
    · rw [← hroom]; exact (i8 c hc).2
    · simp at hc
      have f := i2.fits
      rw [i2.rem] at f
      have l := left_le_room g'.out
      have r : room g'.out = room o := by unfold room; rw [i4]; show (if o'.max > 1228 then _ else _) = _; rw [h3]
      rw [hc]
      unfold currSize at f; omega
  · intro c hc; exact (i8 c hc).1
  · constructor
    · intro h hnil; simp [currSize, hnil] at h
    · intro h
      cases hcur : g'.cur with
      | nil => exact absurd hcur h
      | cons y ys =>
        have hy : y ∈ xs := by
          have : y ∈ chs.flatten ++ g'.cur := List.mem_append.2 (Or.inr (by rw [hcur]; exact List.mem_cons_self ..))
          rw [i7] at this; simpa using this
        have := hx y hy
        simp only [currSize, hcur, List.flatten_cons, List.length_append]
        omega
  · have h6 : g'.out.max = o.max := by rw [i4]; exact h3
    omega

/-- a grouping of images is the image of a grouping -/
theorem unflatten {α β : Type} (f : α → β) (L : List (List β)) : ∀ xs : List α, L.flatten = xs.map f →
    ∃ L' : List (List α), L = L'.map (fun c => c.map f) ∧ L'.flatten = xs := by
  induction L with
  | nil => intro xs h; exact ⟨[], rfl, by simpa using h.symm⟩
  | cons c cs ih =>
    intro xs h
    rw [List.flatten_cons] at h
    obtain ⟨l1, l2, rfl, h1, h2⟩ := List.map_eq_append_iff.1 h.symm
    obtain ⟨L', e1, e2⟩ := ih l2 h2.symm
    exact ⟨l1 :: L', by rw [List.map_cons, h1, ← e1], by rw [List.flatten_cons, e2]⟩

/-! ### Reading -/

theorem takeAddrs_flatten (k : Nat) (xs : List (List Nat)) (h : ∀ x ∈ xs, x.length = k) (rest : List Nat) :
    takeAddrs k xs.length (xs.flatten ++ rest) = some xs := by
  induction xs with
  | nil => rfl
  | cons x xs ih =>
    have hx := h x (List.mem_cons_self ..)
    have ih := ih (fun y hy => h y (List.mem_cons_of_mem _ hy))
    rw [List.length_cons, takeAddrs, List.flatten_cons, List.append_assoc]
    rw [if_neg (by rw [List.length_append]; omega)]
    rw [← hx, List.drop_left, List.take_left, hx, ih]
    rfl

theorem takeAddrs_isSome (k n : Nat) : ∀ l : List Nat, (takeAddrs k n l ≠ none ↔ n * k ≤ l.length) := by
  induction n with
  | zero => intro l; simp [takeAddrs]
  | succ n ih =>
    intro l
    rw [takeAddrs]
    have e : (n + 1) * k = n * k + k := by rw [Nat.add_mul, Nat.one_mul]
    by_cases h : l.length < k
    · rw [if_pos h]
      constructor
      · intro h'; exact absurd rfl h'
      · intro h'; omega
    · rw [if_neg h, e]
      have := ih (l.drop k)
      rw [List.length_drop] at this
      constructor
      · intro h'
        have : takeAddrs k n (l.drop k) ≠ none := by
          intro hn; rw [hn] at h'; exact h' rfl
        have := (ih (l.drop k)).1 this
        rw [List.length_drop] at this; omega
      · intro h' hn
        have h2 := this.2 (by omega)
        cases hx : takeAddrs k n (l.drop k) with
        | none => exact h2 hx
        | some r => rw [hx] at hn; cases hn

/-- the fields of a generated message -/
theorem message_fields (v6 : Bool) (ty vtime : Nat) (main : List Nat) (seq : Nat) (p : List Nat)
    (hm : main.length = ipsize v6) (hs : hdr v6 + p.length < 65536) (hq : seq < 65536) :
    (message ty vtime main seq p).getD 0 0 = ty ∧
    (message ty vtime main seq p).getD 1 0 = vtime ∧
    rd16 ((message ty vtime main seq p).getD 2 0) ((message ty vtime main seq p).getD 3 0) = hdr v6 + p.length ∧
    ((message ty vtime main seq p).drop 4).take (ipsize v6) = main ∧
    rd16 ((message ty vtime main seq p).getD (ipsize v6 + 6) 0) ((message ty vtime main seq p).getD (ipsize v6 + 7) 0) = seq ∧
    (message ty vtime main seq p).drop (hdr v6) = p := by
  have hh := hdr_eq v6
  have hsz : 8 + main.length + p.length < 65536 := by omega
  have e : message ty vtime main seq p =
      ty :: vtime :: ((8 + main.length + p.length) / 256 % 256) :: ((8 + main.length + p.length) % 256) ::
        (main ++ (255 :: 0 :: (seq / 256 % 256) :: (seq % 256) :: p)) := by
    simp [message, TcPkt.be16]
  rw [e]
  refine ⟨rfl, rfl, ?_, ?_, ?_, ?_⟩
  · simp only [List.getD_cons_succ, List.getD_cons_zero, rd16]
    omega
  · simp only [List.drop_succ_cons, List.drop_zero]
    rw [← hm, List.take_left]
  · have g : ∀ j, ipsize v6 + (j + 4) = (main.length + j) + 4 := by intro j; omega
    rw [show ipsize v6 + 6 = (main.length + 2) + 4 by omega, show ipsize v6 + 7 = (main.length + 3) + 4 by omega]
    simp only [List.getD_cons_succ]
    rw [List.getD_eq_getElem?_getD, List.getD_eq_getElem?_getD,
      List.getElem?_append_right (by omega), List.getElem?_append_right (by omega)]
    rw [show main.length + 2 - main.length = 2 by omega, show main.length + 3 - main.length = 3 by omega]
    simp [rd16]
    omega
  · rw [show hdr v6 = (main.length + 4) + 4 by omega]
    simp only [List.drop_succ_cons]
    rw [← List.drop_drop, List.drop_left]
    rfl

theorem flatten_length (k : Nat) (xs : List (List Nat)) (h : ∀ x ∈ xs, x.length = k) :
    xs.flatten.length = xs.length * k := by
  induction xs with
  | nil => simp
  | cons x xs ih =>
    have hx := h x (List.mem_cons_self ..)
    have ih := ih (fun y hy => h y (List.mem_cons_of_mem _ hy))
    rw [List.flatten_cons, List.length_append, List.length_cons, ih, hx, Nat.add_mul, Nat.one_mul]; omega

end Verif.BuildMsg
