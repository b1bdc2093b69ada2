import Verif.ParserModel

/-!
# C12, C13: splitting a datagram into messages
-/

namespace Verif.Parser

/-! ### Specification -/

/-- a message of `len` bytes at offset `off` of the datagram `d`: inside the datagram, at least a message
header, a multiple of four, and carrying its own length in bytes 2 and 3 -/
def Message (ipsize : Nat) (d : List Nat) (off len : Nat) : Prop :=
  off + len ≤ d.length ∧ 8 + ipsize ≤ len ∧ len % 4 = 0 ∧ len = d.getD (off + 2) 0 * 256 + d.getD (off + 3) 0

/-- the messages of a datagram from an offset on: one after the other, up to the first place where there is
no message -/
inductive Messages (ipsize : Nat) (d : List Nat) : Nat → List (Nat × Nat) → Prop
  | stop {off} : (¬ ∃ len, Message ipsize d off len) → Messages ipsize d off []
  | next {off len l} : Message ipsize d off len → Messages ipsize d (off + len) l → Messages ipsize d off ((off, len) :: l)

/-- originator address field of the message at `off` -/
def originator (ipsize : Nat) (d : List Nat) (off : Nat) : List Nat := (d.drop (off + 4)).take ipsize

/-- what has to happen with one message -/
def Treated (cfg : Cfg) (d : List Nat) (off len : Nat) (evs : List Ev) : Prop :=
  if originator cfg.ipsize d off = cfg.mainAddr ∨ originator cfg.ipsize d off ∈ cfg.deny then
    (∀ e ∈ evs, ∃ t s, e = .collision t s)
  else
    ∃ answers : List Bool,
      answers.length = (cfg.fns.filter fun f => f.2 = none ∨ f.2 = some (d.getD off 0)).length ∧
      evs = List.zipWith (fun f a => Ev.call f.1 off len a)
          (cfg.fns.filter fun f => f.2 = none ∨ f.2 = some (d.getD off 0)) answers ++
        (if ∀ a ∈ answers, a = true then [.forward off len] else [])

/-- each message in turn is treated, nothing else happens -/
inductive Trace (cfg : Cfg) (d : List Nat) : List (Nat × Nat) → List Ev → Prop
  | nil : Trace cfg d [] []
  | cons {off len l evs evs'} : Treated cfg d off len evs → Trace cfg d l evs' →
      Trace cfg d ((off, len) :: l) (evs ++ evs')

/-! ### Proofs -/

private theorem callFns_spec (env : Env) (off size type : Nat) : ∀ (fs : List (Nat × Option Nat)) (evs : List Ev) (fw : Bool),
    ∃ answers : List Bool,
      answers.length = (fs.filter fun f => f.2 = none ∨ f.2 = some type).length ∧
      (callFns env off size type fs evs fw).1 = evs ++ List.zipWith (fun f a => Ev.call f.1 off size a)
          (fs.filter fun f => f.2 = none ∨ f.2 = some type) answers ∧
      ((callFns env off size type fs evs fw).2 = true ↔ fw = true ∧ ∀ a ∈ answers, a = true) := by
  intro fs
  induction fs with
  | nil => intro evs fw; exact ⟨[], rfl, by simp [callFns], by simp [callFns]⟩
  | cons f fs ih =>
    intro evs fw
    rw [callFns]
    by_cases h : f.2 = none ∨ f.2 = some type
    · rw [if_pos h]
      obtain ⟨as, h1, h2, h3⟩ := ih (evs ++ [.call f.1 off size (env.fn evs f.1 off)]) (fw && env.fn evs f.1 off)
      refine ⟨env.fn evs f.1 off :: as, ?_, ?_, ?_⟩
      · simp [h, h1]
      · rw [h2]; simp [h]
      · rw [h3]; simp [and_assoc]
    · rw [if_neg h]
      obtain ⟨as, h1, h2, h3⟩ := ih evs fw
      refine ⟨as, ?_, ?_, h3⟩
      · simp [h, h1]
      · rw [h2]; simp [h]

/-- memory still holds the datagram from `off` on -/
private def Agree (d mem : List Nat) (off : Nat) : Prop :=
  d.length ≤ mem.length ∧ ∀ i, off ≤ i → i < d.length → mem[i]? = some (d.getD i 0)

private theorem rewrite_length (cfg : Cfg) (m : List Nat) (off : Nat) : (rewrite cfg m off).length = m.length := by
  simp [rewrite]

private theorem rewrite_get (cfg : Cfg) (m : List Nat) (off i : Nat) (h : off + 5 + cfg.ipsize < i) :
    (rewrite cfg m off)[i]? = m[i]? := by
  rw [rewrite, List.getElem?_set_ne (by omega), List.getElem?_set_ne (by omega)]

private theorem rd16_agree {d mem : List Nat} {off : Nat} (ha : Agree d mem off) (i : Nat) (h : off ≤ i) (h2 : i + 1 < d.length) :
    rd16 mem i = some (d.getD i 0 * 256 + d.getD (i + 1) 0) := by
  rw [rd16, ha.2 i h (by omega), ha.2 (i + 1) (by omega) h2]; rfl

private theorem rdAddr_agree {d mem : List Nat} {off : Nat} (ha : Agree d mem off) (i n : Nat) (h : off ≤ i) (h2 : i + n ≤ d.length) :
    rdAddr mem i n = some ((d.drop i).take n) := by
  have hl := ha.1
  rw [rdAddr, if_pos (by omega)]
  congr 1
  apply List.ext_getElem?
  intro k
  by_cases hk : k < n
  · rw [List.getElem?_take_of_lt hk, List.getElem?_take_of_lt hk, List.getElem?_drop, List.getElem?_drop,
      ha.2 (i + k) (by omega) (by omega), List.getD_eq_getElem?_getD]
    rw [List.getElem?_eq_getElem (show i + k < d.length by omega)]; rfl
  · rw [List.getElem?_take_eq_none (by omega), List.getElem?_take_eq_none (by omega)]

private theorem treated_ignored {cfg : Cfg} {d : List Nat} {off len : Nat} {evs : List Ev}
    (hc : originator cfg.ipsize d off = cfg.mainAddr ∨ originator cfg.ipsize d off ∈ cfg.deny)
    (h : ∀ e ∈ evs, ∃ t s, e = .collision t s) : Treated cfg d off len evs := by
  rw [Treated, if_pos hc]; exact h

private theorem treated_handled {cfg : Cfg} {d : List Nat} {off len : Nat} {evs : List Ev} (answers : List Bool)
    (hc : ¬ (originator cfg.ipsize d off = cfg.mainAddr ∨ originator cfg.ipsize d off ∈ cfg.deny))
    (h1 : answers.length = (cfg.fns.filter fun f => f.2 = none ∨ f.2 = some (d.getD off 0)).length)
    (h2 : evs = List.zipWith (fun f a => Ev.call f.1 off len a)
          (cfg.fns.filter fun f => f.2 = none ∨ f.2 = some (d.getD off 0)) answers ++
        (if ∀ a ∈ answers, a = true then [.forward off len] else [])) : Treated cfg d off len evs := by
  rw [Treated, if_neg hc]; exact ⟨answers, h1, h2⟩

private theorem handle_spec (cfg : Cfg) (env : Env) (d : List Nat) (off len seqno : Nat) (st : St)
    (hm : Message cfg.ipsize d off len) (ha : Agree d st.mem off) :
    Agree d (handle cfg env off len (d.getD off 0) seqno (originator cfg.ipsize d off) st).mem (off + len) ∧
    ∃ evs, (handle cfg env off len (d.getD off 0) seqno (originator cfg.ipsize d off) st).evs = st.evs ++ evs ∧
      Treated cfg d off len evs := by
  obtain ⟨hm1, hm2, hm3, hm4⟩ := hm
  have hag : ∀ m, m.length = st.mem.length → (∀ i, off + len ≤ i → m[i]? = st.mem[i]?) → Agree d m (off + len) := by
    intro m h1 h2
    refine ⟨by rw [h1]; exact ha.1, ?_⟩
    intro i hi hl
    rw [h2 i hi, ha.2 i (by omega) hl]
  have hv : validate cfg (originator cfg.ipsize d off) = false ↔ originator cfg.ipsize d off ∈ cfg.deny := by
    simp [validate]
  unfold handle
  by_cases hc : originator cfg.ipsize d off = cfg.mainAddr ∨ originator cfg.ipsize d off ∈ cfg.deny
  · rw [if_pos (by rw [hv]; exact hc)]
    split
    · exact ⟨hag _ rfl fun _ _ => rfl, [.collision _ _], rfl, treated_ignored hc (by simp)⟩
    · exact ⟨hag _ rfl fun _ _ => rfl, [], by simp, treated_ignored hc (by simp)⟩
  · rw [if_neg (by rw [hv]; exact hc)]
    obtain ⟨as, h1, h2, h3⟩ := callFns_spec env off len (d.getD off 0) cfg.fns st.evs true
    generalize hr : callFns env off len (d.getD off 0) cfg.fns st.evs true = r at h2 h3
    show Agree d (if r.2 = true then _ else _ : St).mem _ ∧ ∃ evs, (if r.2 = true then _ else _ : St).evs = _ ∧ _
    by_cases hb : r.2 = true
    · rw [if_pos hb]
      refine ⟨?_, ?_⟩
      · show Agree d (if env.fwd r.1 off = true then rewrite cfg st.mem off else st.mem) _
        split
        · exact hag _ (rewrite_length _ _ _) fun i hi => rewrite_get _ _ _ _ (by omega)
        · exact hag _ rfl fun _ _ => rfl
      · have hall := (h3.1 hb).2
        refine ⟨_, ?_, treated_handled as hc h1 rfl⟩
        show r.1 ++ _ = _
        rw [h2, List.append_assoc, if_pos hall]
    · rw [if_neg hb]
      refine ⟨hag _ rfl fun _ _ => rfl, _, ?_, treated_handled as hc h1 rfl⟩
      show r.1 = _
      rw [if_neg, List.append_nil, h2]
      intro hall
      exact hb (h3.2 ⟨rfl, hall⟩)

private theorem no_message_of (ipsize : Nat) (d : List Nat) (off : Nat)
    (h : let size := d.getD (off + 2) 0 * 256 + d.getD (off + 3) 0
      size < 8 + ipsize ∨ size % 4 ≠ 0 ∨ off + size > d.length) : ¬ ∃ len, Message ipsize d off len := by
  rintro ⟨len, h1, h2, h3, h4⟩
  simp only at h
  rw [← h4] at h
  omega

private theorem loop_spec (cfg : Cfg) (env : Env) (d : List Nat) : ∀ (fuel off count : Nat) (st : St),
    off + count = d.length → count < fuel → Agree d st.mem off →
    ∃ st' l evs, loop cfg env fuel off count st = some st' ∧ st'.evs = st.evs ++ evs ∧
      Messages cfg.ipsize d off l ∧ Trace cfg d l evs := by
  intro fuel
  induction fuel with
  | zero => intro off count st _ h _; omega
  | succ fuel ih =>
    intro off count st hc hf ha
    rw [loop]
    have hstop : (¬ ∃ len, Message cfg.ipsize d off len) → ∃ st' l evs, some st = some st' ∧ st'.evs = st.evs ++ evs ∧
        Messages cfg.ipsize d off l ∧ Trace cfg d l evs := fun h => ⟨st, [], [], rfl, by simp, .stop h, .nil⟩
    by_cases h0 : count < 8 + cfg.ipsize
    · have : ¬ ∃ len, Message cfg.ipsize d off len := by
        rintro ⟨len, h1, h2, h3, h4⟩; omega
      have e : ∀ x : Option St, (if count = 0 then some st else if count < 8 + cfg.ipsize then some st else x) = some st := by
        intro x
        rw [if_pos h0, ite_self]
      rw [e]; exact hstop this
    · rw [if_neg (by omega), if_neg h0, rd16_agree ha (off + 2) (by omega) (by omega),
        rd16_agree ha (off + 6 + cfg.ipsize) (by omega) (by omega)]
      have hno := no_message_of cfg.ipsize d off
      obtain ⟨size, hsz⟩ : ∃ x, d.getD (off + 2) 0 * 256 + d.getD (off + 3) 0 = x := ⟨_, rfl⟩
      obtain ⟨seqno, hsq⟩ : ∃ x, d.getD (off + 6 + cfg.ipsize) 0 * 256 + d.getD (off + 6 + cfg.ipsize + 1) 0 = x := ⟨_, rfl⟩
      rw [hsz] at hno
      rw [show off + 2 + 1 = off + 3 from rfl, hsz, hsq]
      simp only [Option.bind_eq_bind, Option.bind_some]
      split
      · exact hstop (hno (by simp only; omega))
      · split
        · exact hstop (hno (by simp only; omega))
        · split
          · exact hstop (hno (by simp only; omega))
          · rename_i g1 g2 g3
            have hm : Message cfg.ipsize d off size := ⟨by omega, by omega, by omega, hsz.symm⟩
            rw [rdAddr_agree ha (off + 4) cfg.ipsize (by omega) (by omega), ha.2 off (by omega) (by omega)]
            simp only [Option.bind_some]
            obtain ⟨k1, evs1, k2, k3⟩ := handle_spec cfg env d off size seqno st hm ha
            obtain ⟨st', l, evs, q1, q2, q3, q4⟩ := ih (off + size) (count - size) _ (by omega) (by omega) k1
            refine ⟨st', (off, size) :: l, evs1 ++ evs, q1, ?_, .next hm q3, .cons k3 q4⟩
            rw [q2, k2, List.append_assoc]

/-- **C12 / C13 (partial in two respects).**  For every datagram `d` of 4 up to 65535 bytes in front of any
stale buffer contents, any registered functions and any behaviour of handlers and forwarding: parsing ends
without reading outside the buffer, and either nothing happens or exactly the messages of the datagram, one
after the other from offset 4, are treated as specified - own and denied originators are ignored and the
following messages still processed, all others are given to exactly the matching functions and then to the
forwarding routine if and only if none of them objected.  A datagram whose length field is right and that is
long enough is always parsed.
Missing for the full C12: datagrams of 1 to 3 bytes (`C12_two_byte_datagram`). -/
theorem C12_messages_partial (cfg : Cfg) (env : Env) (d stale : List Nat) (h4 : 4 ≤ d.length) (h65 : d.length < 65536) :
    ∃ st, parsePacket cfg env (d ++ stale) d.length = some st ∧
      if 8 ≤ d.length ∧ d.getD 0 0 * 256 + d.getD 1 0 = d.length then
        ∃ l, Messages cfg.ipsize d 4 l ∧ Trace cfg d l st.evs
      else st.evs = [] := by
  have hcount : (d.length + 4294967296 - 4) % 4294967296 = d.length - 4 := by omega
  have ha : ∀ off, Agree d (d ++ stale) off := by
    intro off
    refine ⟨by simp, ?_⟩
    intro i _ hi
    rw [List.getElem?_append_left hi, List.getElem?_eq_getElem hi, List.getD_eq_getElem?_getD, List.getElem?_eq_getElem hi]
    rfl
  unfold parsePacket
  simp only [hcount]
  by_cases h8 : d.length - 4 < 4
  · rw [if_pos h8]
    refine ⟨_, rfl, ?_⟩
    rw [if_neg (by omega)]
  · rw [if_neg h8, rd16_agree (ha 0) 0 (by omega) (by omega), Nat.zero_add]
    simp only [Option.bind_eq_bind, Option.bind_some]
    have hmod : d.length % 65536 = d.length := by omega
    rw [hmod]
    by_cases hp : d.getD 0 0 * 256 + d.getD 1 0 = d.length
    · rw [if_neg (fun h => h hp)]
      obtain ⟨st', l, evs, q1, q2, q3, q4⟩ := loop_spec cfg env d (d.length - 4 + 1) 4 (d.length - 4) { mem := d ++ stale, evs := [] }
        (by omega) (by omega) (ha 4)
      refine ⟨st', q1, ?_⟩
      rw [if_pos ⟨by omega, hp⟩]
      exact ⟨l, q3, by rw [q2]; exact q4⟩
    · rw [if_pos hp]
      refine ⟨_, rfl, ?_⟩
      rw [if_neg (fun h => hp h.2)]

/-- what "the messages of the datagram" means: they lie inside it one directly after the other -/
theorem C12_messages_inside {ipsize : Nat} {d : List Nat} {off : Nat} {l : List (Nat × Nat)} (h : Messages ipsize d off l) :
    (∀ m ∈ l, off ≤ m.1 ∧ m.1 + m.2 ≤ d.length ∧ 8 + ipsize ≤ m.2 ∧ m.2 % 4 = 0) ∧
    l.Pairwise (fun a b => a.1 + a.2 ≤ b.1) := by
  induction h with
  | stop _ => exact ⟨by simp, .nil⟩
  | @next off len l hm _ ih =>
    obtain ⟨h1, h2, h3, h4⟩ := hm
    constructor
    · intro m hml
      rcases List.mem_cons.1 hml with rfl | hml
      · exact ⟨Nat.le_refl _, h1, h2, h3⟩
      · have := ih.1 m hml
        exact ⟨by omega, this.2⟩
    · exact .cons (fun m hml => (ih.1 m hml).1) ih.2

/-- the decomposition is unique, so the theorem above determines the behaviour -/
theorem C12_messages_unique {ipsize : Nat} {d : List Nat} {off : Nat} {l l' : List (Nat × Nat)}
    (h : Messages ipsize d off l) (h' : Messages ipsize d off l') : l = l' := by
  induction h generalizing l' with
  | stop hn =>
    cases h' with
    | stop => rfl
    | next hm => exact absurd ⟨_, hm⟩ hn
  | @next off len l hm _ ih =>
    cases h' with
    | stop hn => exact absurd ⟨_, hm⟩ hn
    | @next _ len' l2 hm' h2 =>
      have e : len = len' := by rw [hm.2.2.2, hm'.2.2.2]
      subst e
      rw [ih h2]

private theorem trace_mem {cfg : Cfg} {d : List Nat} {l : List (Nat × Nat)} {evs : List Ev} (h : Trace cfg d l evs) :
    ∀ e ∈ evs, ∃ m ∈ l, ∃ evs', e ∈ evs' ∧ Treated cfg d m.1 m.2 evs' := by
  induction h with
  | nil => simp
  | @cons off len l evs evs' ht _ ih =>
    intro e he
    rcases List.mem_append.1 he with he | he
    · exact ⟨(off, len), by simp, evs, he, ht⟩
    · obtain ⟨m, hm, r⟩ := ih e he
      exact ⟨m, by simp [hm], r⟩

private theorem treated_call {cfg : Cfg} {d : List Nat} {off len : Nat} {evs : List Ev} (h : Treated cfg d off len evs)
    {e : Ev} (he : e ∈ evs) (hcall : (∃ fn o s a, e = .call fn o s a) ∨ ∃ o s, e = .forward o s) :
    ((∃ fn a, e = .call fn off len a) ∨ e = .forward off len) ∧ originator cfg.ipsize d off ≠ cfg.mainAddr ∧
      originator cfg.ipsize d off ∉ cfg.deny := by
  unfold Treated at h
  split at h
  · obtain ⟨t, s, hts⟩ := h e he
    rcases hcall with ⟨fn, o, s', a, hc⟩ | ⟨o, s', hc⟩
    · rw [hts] at hc; cases hc
    · rw [hts] at hc; cases hc
  · rename_i hn
    refine ⟨?_, fun h => hn (Or.inl h), fun h => hn (Or.inr h)⟩
    obtain ⟨as, h1, h2⟩ := h
    rw [h2] at he
    rcases List.mem_append.1 he with he | he
    · left
      obtain ⟨i, hi, he⟩ := List.mem_iff_getElem.1 he
      rw [List.getElem_zipWith] at he
      exact ⟨_, _, he.symm⟩
    · right
      split at he
      · simpa using he
      · simp at he

/-- **C13 (partial).**  A message handed to a parse function or to the forwarding routine never carries this
node's main address or a denied address (0.0.0.0, 127.0.0.1, ...) as originator, and it lies inside the
datagram.  Missing: the addresses of this node's other interfaces (`C13_secondary_address_processed`). -/
theorem C13_own_ignored_partial (cfg : Cfg) (env : Env) (d stale : List Nat) (st : St) (h4 : 4 ≤ d.length) (h65 : d.length < 65536)
    (h : parsePacket cfg env (d ++ stale) d.length = some st) :
    ∀ e ∈ st.evs, ∀ off len, (∃ fn a, e = .call fn off len a) ∨ e = .forward off len →
      originator cfg.ipsize d off ≠ cfg.mainAddr ∧ originator cfg.ipsize d off ∉ cfg.deny ∧ off + len ≤ d.length := by
  intro e he off len hc
  obtain ⟨st', h1, h2⟩ := C12_messages_partial cfg env d stale h4 h65
  rw [h] at h1
  obtain rfl := Option.some.inj h1
  split at h2
  · obtain ⟨l, hl, ht⟩ := h2
    obtain ⟨m, hm, evs', he', htr⟩ := trace_mem ht e he
    have hin := (C12_messages_inside hl).1 m hm
    have := treated_call htr he' (by
      rcases hc with ⟨fn, a, hc⟩ | hc
      · exact .inl ⟨_, _, _, _, hc⟩
      · exact .inr ⟨_, _, hc⟩)
    obtain ⟨h5, h6, h7⟩ := this
    have : m.1 = off ∧ m.2 = len := by
      rcases hc with ⟨fn, a, hc⟩ | hc
      · rcases h5 with ⟨fn', a', h5⟩ | h5
        · rw [hc] at h5; cases h5; exact ⟨rfl, rfl⟩
        · rw [hc] at h5; cases h5
      · rcases h5 with ⟨fn', a', h5⟩ | h5
        · rw [hc] at h5; cases h5
        · rw [hc] at h5; cases h5; exact ⟨rfl, rfl⟩
    obtain ⟨rfl, rfl⟩ := this
    exact ⟨h6, h7, hin.2.1⟩
  · rw [h2] at he; simp at he

/-! ### Examples and counterexamples -/

/-- IPv4 node 10.0.0.1 with interfaces 10.0.0.1 and 10.1.0.1, a promiscuous function 7 and function 8 for type 2 -/
def exCfg : Cfg :=
  { ipsize := 4, mainAddr := [10, 0, 0, 1], ifAddrs := [[10, 0, 0, 1], [10, 1, 0, 1]], deny := [[0, 0, 0, 0], [127, 0, 0, 1]]
    fns := [(7, none), (8, some 2)] }

/-- function 8 objects to forwarding -/
def exEnv : Env := { fn := fun _ fn _ => fn != 8, fwd := fun _ _ => true }

/-- a message header: type, length, originator -/
def hdr (type len : Nat) (orig : List Nat) : List Nat := [type, 0, len / 256, len % 256] ++ orig ++ [5, 0, 0, 1]

/-- four messages: from 10.0.0.9 (type 1), from this node, type 2 from 10.0.0.9, and a truncated one -/
def exPkt : List Nat :=
  [0, 44, 0, 9] ++ hdr 1 16 [10, 0, 0, 9] ++ [1, 2, 3, 4] ++ hdr 1 12 [10, 0, 0, 1] ++ hdr 2 12 [10, 0, 0, 9]

example : (parsePacket exCfg exEnv (exPkt ++ [99]) 44).map St.evs =
    some [.call 7 4 16 true, .forward 4 16, .collision 1 1, .call 7 32 12 true, .call 8 32 12 false] := by decide

/-- **C12 is false for datagrams of 2 bytes**: `size - 4` wraps, the length check passes for the datagram
`00 02`, and messages left in the buffer by an earlier datagram are processed (here a message at offset 4 of
a 2-byte datagram).  -/
theorem C12_two_byte_datagram :
    (parsePacket exCfg exEnv ([0, 2] ++ (exPkt.drop 2 ++ List.replicate 12 0)) 2).map St.evs =
      some [.call 7 4 16 true, .forward 4 16, .collision 1 1, .call 7 32 12 true, .call 8 32 12 false] := by decide +kernel

/-- **C12 is false for datagrams of 2 bytes**: if the receive buffer (1504 bytes) still holds a message of 1500
bytes, the parser reads the next message header past the end of the buffer. -/
theorem C12_two_byte_datagram_overread :
    parsePacket exCfg exEnv ([0, 2] ++ ([0, 9] ++ hdr 1 1500 [10, 0, 0, 9] ++ List.replicate 1488 0)) 2 = none := by
  decide +kernel

/-- **C13 is false for the node's other interface addresses**: a message claiming to originate from this
node's second interface is processed and forwarded. -/
theorem C13_secondary_address_processed :
    [10, 1, 0, 1] ∈ exCfg.ifAddrs ∧
    (parsePacket exCfg exEnv ([0, 16, 0, 9] ++ hdr 1 12 [10, 1, 0, 1]) 16).map St.evs =
      some [.call 7 4 12 true, .forward 4 12] := by decide

end Verif.Parser
