import Verif.ArpModel

/-!
# C137: the ARP entries come from the OLSR packets of the neighbours
-/

namespace Verif.Arp

/-! ### Specification: an IPv4 packet in an Ethernet frame -/

/-- the fields -/
structure Pkt where
  dstMac : List Nat
  srcMac : List Nat
  tos : List Nat
  /-- the two bytes with flags and fragment offset -/
  flags : Nat
  frag : Nat
  ttl : Nat
  proto : Nat
  sum : List Nat
  src : List Nat
  dst : List Nat
  opts : List Nat
  payload : List Nat

/-- sizes; options are whole words, at most ten; `tos` stands for type of service, total length and
identification -/
def Pkt.Ok (p : Pkt) : Prop :=
  p.dstMac.length = 6 ∧ p.srcMac.length = 6 ∧ p.tos.length = 5 ∧ p.sum.length = 2 ∧ p.src.length = 4 ∧ p.dst.length = 4 ∧
  p.opts.length % 4 = 0 ∧ p.opts.length ≤ 40 ∧ p.flags < 8 ∧ p.frag < 8192

/-- the frame -/
def Pkt.bytes (p : Pkt) : List Nat :=
  p.dstMac ++ (p.srcMac ++ ([8, 0, 64 + (5 + p.opts.length / 4)] ++ (p.tos ++ ([(p.flags * 8192 + p.frag) / 256, p.frag % 256, p.ttl, p.proto]
    ++ (p.sum ++ (p.src ++ (p.dst ++ (p.opts ++ p.payload))))))))

/-- the beginning of a UDP datagram to port 698: two bytes of source port, then 698 -/
def ToOlsr (l : List Nat) : Prop := ∃ a b rest, l = a :: b :: 2 :: 186 :: rest

/-- the frame the filter lets pass, byte by byte -/
def Pass (p : List Nat) : Prop :=
  half p 12 = some 0x800 ∧ p[23]? = some 17 ∧ (∃ f, half p 20 = some f ∧ f % 8192 = 0) ∧
  ∃ v, p[14]? = some v ∧ half p (4 * (v % 16) + 16) = some 698

private theorem and_mask (a : Nat) : a &&& 0x1fff = a % 8192 := by
  have : (0x1fff : Nat) = 2 ^ 13 - 1 := by decide
  rw [this, Nat.and_two_pow_sub_one_eq_mod]

private theorem filter_eq (p : List Nat) : (Pass p → filter p = some 42) ∧ (¬ Pass p → filter p = some 0) := by
  unfold Pass filter prog
  simp only [List.length_cons, List.length_nil, run]
  cases h1 : half p 12 with
  | none => simp
  | some v1 =>
    simp only []
    by_cases e1 : v1 = 0x800
    · subst e1
      simp only [if_true, List.drop, run]
      cases h2 : p[23]? with
      | none => simp
      | some v2 =>
        simp only []
        by_cases e2 : v2 = 17
        · subst e2
          simp only [if_true, List.drop, run]
          cases h3 : half p 20 with
          | none => simp
          | some v3 =>
            simp only [and_mask]
            by_cases e3 : v3 % 8192 = 0
            · rw [if_neg (by simp [e3])]
              simp only [List.drop, run]
              cases h4 : p[14]? with
              | none => simp
              | some v4 =>
                simp only []
                cases h5 : half p (4 * (v4 % 16) + 16) with
                | none => simp [h5]
                | some v5 =>
                  simp only []
                  by_cases e5 : v5 = 698
                  · subst e5
                    simp [run, e3, h5]
                  · simp [run, e5, e3, h5]
            · rw [if_pos (by simpa using e3)]
              simp [run, e3]
        · simp [e2, run]
    · simp [e1, run]

/-- The filter never fails, and queues either the first 42 bytes of a frame or nothing. -/
theorem C137_filter (p : List Nat) : filter p = some 42 ∨ filter p = some 0 := by
  by_cases h : Pass p
  · exact Or.inl ((filter_eq p).1 h)
  · exact Or.inr ((filter_eq p).2 h)

private theorem get_off (l m : List Nat) (k n : Nat) (h : l.length = k) : (l ++ m)[k + n]? = m[n]? := by
  rw [List.getElem?_append_right (by omega)]
  congr 1; omega

private theorem half_off (l m : List Nat) (k n : Nat) (h : l.length = k) : half (l ++ m) (k + n) = half m n := by
  unfold half
  rw [show k + n + 1 = k + (n + 1) by omega, get_off l m k n h, get_off l m k (n + 1) h]

private theorem fields (p : Pkt) (h : p.Ok) :
    half p.bytes 12 = some 0x800 ∧ p.bytes[14]? = some (64 + (5 + p.opts.length / 4)) ∧
    half p.bytes 20 = some ((p.flags * 8192 + p.frag) / 256 * 256 + p.frag % 256) ∧ p.bytes[23]? = some p.proto ∧
    half p.bytes (34 + (p.opts.length + 2)) = half p.payload 2 := by
  obtain ⟨h1, h2, h3, h4, h5, h6, -⟩ := h
  have e : ∀ n, p.bytes[6 + (6 + n)]? = ([8, 0, 64 + (5 + p.opts.length / 4)] ++ (p.tos ++ ([(p.flags * 8192 + p.frag) / 256, p.frag % 256, p.ttl, p.proto]
    ++ (p.sum ++ (p.src ++ (p.dst ++ (p.opts ++ p.payload)))))))[n]? := by
    intro n; rw [Pkt.bytes, get_off _ _ 6 _ h1, get_off _ _ 6 _ h2]
  have e2 : ∀ n, p.bytes[6 + (6 + (3 + (5 + n)))]? = ([(p.flags * 8192 + p.frag) / 256, p.frag % 256, p.ttl, p.proto]
    ++ (p.sum ++ (p.src ++ (p.dst ++ (p.opts ++ p.payload)))))[n]? := by
    intro n; rw [e, get_off _ _ 3 _ rfl, get_off _ _ 5 _ h3]
  refine ⟨?_, ?_, ?_, ?_, ?_⟩
  · unfold half
    have := e 0; have h' := e 1
    simp only [Nat.reduceAdd] at this h'
    rw [this, h']; rfl
  · have := e 2
    simp only [Nat.reduceAdd] at this
    rw [this]; rfl
  · unfold half
    have := e2 0; have h' := e2 1
    simp only [Nat.reduceAdd] at this h'
    rw [this, h']; rfl
  · have := e2 3
    simp only [Nat.reduceAdd] at this
    rw [this]; rfl
  · have k : 34 + (p.opts.length + 2) = 6 + (6 + (3 + (5 + (4 + (2 + (4 + (4 + (p.opts.length + 2)))))))) := by omega
    rw [k, Pkt.bytes, half_off _ _ 6 _ h1, half_off _ _ 6 _ h2, half_off _ _ 3 _ rfl, half_off _ _ 5 _ h3, half_off _ _ 4 _ rfl,
      half_off _ _ 2 _ h4, half_off _ _ 4 _ h5, half_off _ _ 4 _ h6, half_off _ _ _ _ rfl]

private theorem toOlsr_iff (l : List Nat) (hb : ∀ b ∈ l, b < 256) : ToOlsr l ↔ half l 2 = some 698 := by
  constructor
  · rintro ⟨a, b, rest, rfl⟩; rfl
  · intro h
    match l, hb with
    | [], _ => simp [half] at h
    | [_], _ => simp [half] at h
    | [_, _], _ => simp [half] at h
    | [_, _, _], _ => simp [half] at h
    | a :: b :: c :: d :: rest, hb =>
      have hc := hb c (by simp)
      have hd := hb d (by simp)
      simp only [half] at h
      simp only [List.getElem?_cons_succ, List.getElem?_cons_zero, Option.some.injEq] at h
      have : c = 2 := by omega
      have : d = 186 := by omega
      subst c; subst d
      exact ⟨a, b, rest, rfl⟩

/-- **C137 (partial).**  Full claim: the filter lets a frame pass exactly if it is an IPv4 packet with UDP, not a
later fragment, sent to port 698.  What holds: exactly this for all IPv4 packets with a well-formed header, with
any options.  Missing: the header length is not checked (`C137_header`). -/
theorem C137_accepts_partial (p : Pkt) (h : p.Ok) (hb : ∀ b ∈ p.payload, b < 256) :
    filter p.bytes = some 42 ↔ p.proto = 17 ∧ p.frag = 0 ∧ ToOlsr p.payload := by
  have key : Pass p.bytes ↔ p.proto = 17 ∧ p.frag = 0 ∧ ToOlsr p.payload := by
    obtain ⟨f1, f2, f3, f4, f5⟩ := fields p h
    obtain ⟨-, -, -, -, -, -, h7, h8, h9, h10⟩ := h
    have hoff : 4 * ((64 + (5 + p.opts.length / 4)) % 16) + 16 = 34 + (p.opts.length + 2) := by omega
    rw [toOlsr_iff p.payload hb, Pass, f1, f2, f3, f4]
    constructor
    · rintro ⟨-, g1, ⟨f, g2, g3⟩, v, g4, g5⟩
      cases g2; cases g4
      rw [hoff, f5] at g5
      exact ⟨by simpa using g1, by omega, g5⟩
    · rintro ⟨g1, g2, g3⟩
      refine ⟨rfl, by rw [g1], ⟨_, rfl, by omega⟩, _, rfl, ?_⟩
      rw [hoff, f5]; exact g3
  rw [← key]
  constructor
  · intro hf
    apply Classical.byContradiction
    intro hn
    rw [(filter_eq p.bytes).2 hn] at hf
    simp at hf
  · exact (filter_eq p.bytes).1

/-- Frames that are not IPv4 never pass. -/
theorem C137_other (mac rest : List Nat) (a b : Nat) (hm : mac.length = 12) (hb : b < 256)
    (h : ¬ (a = 8 ∧ b = 0)) : filter (mac ++ a :: b :: rest) = some 0 := by
  refine (filter_eq _).2 ?_
  rintro ⟨h1, -⟩
  have := half_off mac (a :: b :: rest) 12 0 hm
  simp only [Nat.add_zero] at this
  rw [this] at h1
  have h1 : some (a * 256 + b) = some 2048 := h1
  have h2 : a * 256 + b = 2048 := Option.some.inj h1
  omega

/-- a packet with options -/
def samplePkt : Pkt :=
  { dstMac := [255, 255, 255, 255, 255, 255], srcMac := [2, 0, 0, 0, 0, 7], tos := [0, 0, 40, 18, 52], flags := 2, frag := 0, ttl := 1,
    proto := 17, sum := [1, 2], src := [10, 0, 0, 7], dst := [255, 255, 255, 255], opts := [1, 1, 1, 0],
    payload := [2, 186, 2, 186, 0, 16, 0, 0] }

example : samplePkt.Ok ∧ (∀ b ∈ samplePkt.payload, b < 256) ∧ filter samplePkt.bytes = some 42 ∧
    filter { samplePkt with frag := 3 }.bytes = some 0 ∧ filter { samplePkt with payload := [2, 186, 2, 187, 0, 16, 0, 0] }.bytes = some 0 :=
  ⟨⟨rfl, rfl, rfl, rfl, rfl, rfl, rfl, by decide, by decide, by decide⟩, by decide, by decide, by decide, by decide⟩

example : filter (List.replicate 12 1 ++ 8 :: 6 :: [1, 2, 3]) = some 0 := by decide

/-- **C137 is false** for a header length below 5: with length 0 the total length of the packet is taken for the
port.  This frame has total length 698 and is for port 1. -/
theorem C137_header :
    filter ([255, 255, 255, 255, 255, 255, 2, 0, 0, 0, 0, 7, 8, 0, 0x40, 0, 2, 186, 0, 0, 0, 0, 1, 17, 0, 0, 10, 0, 0, 7, 10, 0, 0, 9,
      0, 1, 0, 1, 0, 8, 0, 0]) = some 42 := by decide

/-! ### The entries -/

/-- the source addresses of a packet, as an entry -/
def Pkt.entry (p : Pkt) (i : Nat) : Entry := ⟨p.src, p.srcMac, i⟩

private theorem take_left' (l m : List Nat) (k : Nat) (h : l.length = k) : (l ++ m).take k = l := by
  rw [List.take_append_of_le_length (by omega), List.take_of_length_le (by omega)]

private theorem drop_left' (l m : List Nat) (k n : Nat) (h : l.length = k) : (l ++ m).drop (k + n) = m.drop n := by
  rw [List.drop_append, List.drop_eq_nil_of_le (by omega), List.nil_append]
  congr 1; omega

/-- The entry made from a queued packet has the two source addresses of the packet. -/
theorem C137_entry (p : Pkt) (h : p.Ok) (i : Nat) :
    entryOf (p.bytes.take 42) i = p.entry i := by
  obtain ⟨h1, h2, h3, h4, h5, h6, -⟩ := h
  unfold entryOf Pkt.entry
  have e1 : ((p.bytes.take 42).drop 26).take 4 = p.src := by
    rw [List.drop_take, List.take_take, show min 4 (42 - 26) = 4 from rfl]
    have : p.bytes.drop 26 = p.src ++ (p.dst ++ (p.opts ++ p.payload)) := by
      rw [Pkt.bytes, show 26 = 6 + (6 + (3 + (5 + (4 + (2 + 0))))) from rfl, drop_left' _ _ 6 _ h1, drop_left' _ _ 6 _ h2,
        drop_left' _ _ 3 _ rfl, drop_left' _ _ 5 _ h3, drop_left' _ _ 4 _ rfl, drop_left' _ _ 2 _ h4, List.drop_zero]
    rw [this, take_left' _ _ 4 h5]
  have e2 : ((p.bytes.take 42).drop 6).take 6 = p.srcMac := by
    rw [List.drop_take, List.take_take, show min 6 (42 - 6) = 6 from rfl]
    rw [Pkt.bytes, show (6 : Nat) = 6 + 0 from rfl, drop_left' _ _ 6 _ h1, List.drop_zero]
    exact take_left' _ _ 6 h2
  rw [e1, e2]

example : entryOf (samplePkt.bytes.take 42) 3 = ⟨[10, 0, 0, 7], [2, 0, 0, 0, 0, 7], 3⟩ := by decide

/-- what an event is worth: one entry for a frame that passes the filter and has room for the headers -/
def worth1 : Ev → List Entry
  | .frame p i => if filter p = some 42 ∧ p.length ≥ 42 then [entryOf (p.take 42) i] else []
  | .tick _ => []

/-- what a history is worth, in the order of arrival -/
def worth (evs : List Ev) : List Entry := evs.flatMap worth1

/-- the entries waiting in the queue -/
private def pending (q : List (List Nat × Nat)) : List Entry :=
  (q.filter fun x => decide (x.1.length ≥ 42)).map fun x => entryOf x.1 x.2

private theorem arrive_pending (s : St) (p : List Nat) (i : Nat) (ho : s.opened = true) :
    (arrive s p i).opened = true ∧ (arrive s p i).made = s.made ∧
    pending (arrive s p i).queue = pending s.queue ++ worth1 (.frame p i) ∧ (arrive s p i).queue.length ≤ s.queue.length + 1 := by
  unfold arrive worth1
  rw [if_pos ho]
  rcases C137_filter p with h | h
  · rw [h]
    simp only [true_and]
    refine ⟨ho, ?_, by simp⟩
    unfold pending
    rw [List.filter_append, List.map_append]
    congr 1
    by_cases hl : p.length ≥ 42
    · have : (p.take 42).length ≥ 42 := by rw [List.length_take]; omega
      rw [if_pos ⟨h, hl⟩, List.filter_cons_of_pos (by simpa using this)]; rfl
    · have : ¬ (p.take 42).length ≥ 42 := by rw [List.length_take]; omega
      rw [if_neg (fun x => hl x.2), List.filter_cons_of_neg (by simpa using this)]; rfl
  · rw [h]
    simp [ho, h]

private theorem tick_pending (s : St) (ok : Bool) (ho : s.opened = true) :
    ((tick s ok).opened = true ∧ (tick s ok).made.reverse ++ pending (tick s ok).queue = s.made.reverse ++ pending s.queue ∧
      (tick s ok).queue.length = s.queue.length - 1) ∨
    (ok = false ∧ (tick s ok).opened = false ∧ ∃ r, (tick s ok).made.reverse ++ r = s.made.reverse ++ pending s.queue) := by
  unfold tick
  rw [if_pos ho]
  cases hq : s.queue with
  | nil => left; simp [ho, hq]
  | cons x q =>
    obtain ⟨p, i⟩ := x
    simp only []
    by_cases hl : p.length ≥ 42
    · rw [if_pos hl]
      have hp : pending ((p, i) :: q) = entryOf p i :: pending q := by
        unfold pending; rw [List.filter_cons_of_pos (by simpa using hl)]; rfl
      cases ok with
      | true => left; rw [if_pos rfl, hp]; simp [ho]
      | false =>
        right
        rw [if_neg (by simp), hp]
        exact ⟨rfl, rfl, pending q, by simp⟩
    · rw [if_neg hl]
      left
      have hp : pending ((p, i) :: q) = pending q := by
        unfold pending; rw [List.filter_cons_of_neg (by simpa using hl)]
      rw [hp]; simp [ho]

private theorem closed_step (s : St) (e : Ev) (h : s.opened = false) : step s e = s := by
  cases e with
  | frame p i => show arrive s p i = s; unfold arrive; rw [if_neg (by simp [h])]
  | tick ok => show tick s ok = s; unfold tick; rw [if_neg (by simp [h])]

/-- After a request was refused the plugin does nothing any more. -/
theorem C137_dead (s : St) (evs : List Ev) (h : s.opened = false) : evs.foldl step s = s := by
  induction evs with
  | nil => rfl
  | cons e evs ih => rw [List.foldl_cons, closed_step s e h]; exact ih

private theorem history (evs : List Ev) : ∀ s, s.opened = true →
    ((evs.foldl step s).opened = true ∧
      (evs.foldl step s).made.reverse ++ pending (evs.foldl step s).queue = s.made.reverse ++ pending s.queue ++ worth evs ∧
      (evs.foldl step s).queue.length ≤ s.queue.length + evs.length) ∨
    (Ev.tick false ∈ evs ∧ ∃ r, (evs.foldl step s).made.reverse ++ r = s.made.reverse ++ pending s.queue ++ worth evs) := by
  induction evs with
  | nil => intro s ho; left; simp [ho, worth]
  | cons e evs ih =>
    intro s ho
    rw [List.foldl_cons]
    have hw : worth (e :: evs) = worth1 e ++ worth evs := by simp [worth]
    rw [hw]
    cases e with
    | frame p i =>
      obtain ⟨h1, h2, h3, h4⟩ := arrive_pending s p i ho
      rcases ih (arrive s p i) h1 with ⟨g1, g2, g3⟩ | ⟨g1, r, g2⟩
      · left
        refine ⟨g1, ?_, ?_⟩
        · rw [show step s (.frame p i) = arrive s p i from rfl]
          rw [g2, h2, h3]; simp
        · have g3 : (evs.foldl step (step s (.frame p i))).queue.length ≤ _ := g3
          simp only [List.length_cons]; omega
      · right
        refine ⟨by simp [g1], r, ?_⟩
        rw [show step s (.frame p i) = arrive s p i from rfl]
        rw [g2, h2, h3]; simp
    | tick ok =>
      have hz : worth1 (.tick ok) = [] := rfl
      rw [hz, List.nil_append]
      rcases tick_pending s ok ho with ⟨h1, h2, h3⟩ | ⟨rfl, h1, r, h2⟩
      · rcases ih (tick s ok) h1 with ⟨g1, g2, g3⟩ | ⟨g1, r, g2⟩
        · left
          refine ⟨g1, ?_, ?_⟩
          · rw [show step s (.tick ok) = tick s ok from rfl]
            rw [g2, h2]
          · have g3 : (evs.foldl step (step s (.tick ok))).queue.length ≤ _ := g3
            simp only [List.length_cons]; omega
        · right
          refine ⟨by simp [g1], r, ?_⟩
          rw [show step s (.tick ok) = tick s ok from rfl]
          rw [g2, h2]
      · right
        refine ⟨by simp, r ++ worth evs, ?_⟩
        have hd := C137_dead (tick s false) evs h1
        rw [show step s (.tick false) = tick s false from rfl]
        rw [hd, ← List.append_assoc, h2]

/-- **C137.**  Over every history, the entries made are a beginning of what the arrivals are worth: each comes from
one frame that passed the filter, in the order of arrival. -/
theorem C137_only_received (evs : List Ev) : (evs.foldl step {}).made.reverse <+: worth evs := by
  rcases history evs {} rfl with ⟨-, h, -⟩ | ⟨-, r, h⟩
  · exact ⟨_, by simpa [pending] using h⟩
  · exact ⟨r, by simpa [pending] using h⟩

/-- **C137 (partial).**  Full claim: the sender of every OLSR packet gets its entry in the end.  What holds: if no
request is refused, after as many ticks as there were events all of them are made.  Missing: one refused request
ends the plugin (`C137_stops`). -/
theorem C137_all_partial (evs : List Ev) (n : Nat) (hok : Ev.tick false ∉ evs) (hn : evs.length ≤ n) :
    ((evs ++ List.replicate n (Ev.tick true)).foldl step {}).made.reverse = worth evs := by
  rw [List.foldl_append]
  rcases history evs {} rfl with ⟨h1, h2, h3⟩ | ⟨h1, -⟩
  · obtain ⟨s, hs⟩ : ∃ s, s = evs.foldl step {} := ⟨_, rfl⟩
    rw [← hs] at h1 h2 h3 ⊢
    have h2 : s.made.reverse ++ pending s.queue = worth evs := by simpa [pending] using h2
    rw [← h2]
    have key : ∀ n (s : St), s.opened = true → s.queue.length ≤ n →
        ((List.replicate n (Ev.tick true)).foldl step s).made.reverse = s.made.reverse ++ pending s.queue := by
      intro n
      induction n with
      | zero =>
        intro s _ hl
        have : s.queue = [] := List.eq_nil_of_length_eq_zero (by omega)
        rw [this]; simp [pending]
      | succ n ih =>
        intro s ho hl
        rw [List.replicate_succ, List.foldl_cons]
        rcases tick_pending s true ho with ⟨g1, g2, g3⟩ | ⟨g1, -⟩
        · rw [← g2]
          exact ih (tick s true) g1 (by omega)
        · simp at g1
    refine key n s h1 ?_
    have : s.queue.length ≤ 0 + evs.length := h3
    omega
  · exact absurd h1 hok

/-- two packets and one that does not pass -/
def sampleEvs : List Ev :=
  [.frame samplePkt.bytes 3, .frame { samplePkt with proto := 6 }.bytes 3, .tick true, .frame { samplePkt with src := [10, 0, 0, 8] }.bytes 4]

example : Ev.tick false ∉ sampleEvs ∧ worth sampleEvs = [⟨[10, 0, 0, 7], [2, 0, 0, 0, 0, 7], 3⟩, ⟨[10, 0, 0, 8], [2, 0, 0, 0, 0, 7], 4⟩] := by decide

/-- **C137 is false** if a request is refused once (for example since the interface of the frame is down by then):
no later packet has an effect. -/
theorem C137_stops :
    ([Ev.frame samplePkt.bytes 3, .tick false, .frame { samplePkt with src := [10, 0, 0, 8] }.bytes 4, .tick true, .tick true].foldl step {}).made =
      [⟨[10, 0, 0, 7], [2, 0, 0, 0, 0, 7], 3⟩] ∧
    worth [Ev.frame { samplePkt with src := [10, 0, 0, 8] }.bytes 4] = [⟨[10, 0, 0, 8], [2, 0, 0, 0, 0, 7], 4⟩] := by decide

/-- **C137 is false** for packets that come from far away: a packet to port 698 of another host that is forwarded by
the router 2:0:0:0:0:7 makes an entry that binds the remote source address 8.8.8.8 to the router. -/
theorem C137_routed :
    ([Ev.frame { samplePkt with src := [8, 8, 8, 8], dst := [192, 0, 2, 1], ttl := 50 }.bytes 3, .tick true].foldl step {}).made =
      [⟨[8, 8, 8, 8], [2, 0, 0, 0, 0, 7], 3⟩] := by decide

end Verif.Arp
