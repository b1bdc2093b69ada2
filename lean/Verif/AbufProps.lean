import Verif.AbufModel

/-!
# C42: the growable buffer
-/

namespace Verif.Abuf

/-- what an operation does to the content -/
def spec (c : List Nat) : Op → List Nat
  | .puts s => c ++ s
  | .appendf s => c ++ s
  | .concat d _ => c ++ d
  | .memcpy p => c ++ p
  | .memcpyPrefix p => p ++ c
  | .pull n _ => c.drop n

/-- bytes an operation adds -/
def Op.adds : Op → Nat
  | .puts s => s.length
  | .appendf s => s.length
  | .concat d _ => d.length
  | .memcpy p => p.length
  | .memcpyPrefix p => p.length
  | .pull _ _ => 0

/-- an operation the caller may perform on content `c`: strings contain no NUL byte, no more is pulled than is there -/
def Op.Ok (c : List Nat) : Op → Prop
  | .puts s => ∀ x ∈ s, x ≠ 0
  | .appendf s => ∀ x ∈ s, x ≠ 0
  | .concat d _ => ∀ x ∈ d, x ≠ 0
  | .memcpy _ => True
  | .memcpyPrefix _ => True
  | .pull n _ => n ≤ c.length

def Op.isPull : Op → Bool
  | .pull _ _ => true
  | _ => false

/-- the buffer `b` holds the content `c` within its block -/
structure Holds (b : ABuf) (c : List Nat) : Prop where
  len : b.len = c.length
  content : b.buf.take b.len = c
  room : b.len < b.size ∨ (b.size = 0 ∧ b.len = 0)
  chunk : b.size % 4096 = 0
  cap : b.size ≤ 16777216

/-- everything behind the content is zero -/
def Zeroed (b : ABuf) : Prop := ∀ x ∈ b.buf.drop b.len, x = 0

private theorem roundUp_spec (v : Nat) (h : v ≤ 16777216) :
    v ≤ roundUp v ∧ roundUp v % 4096 = 0 ∧ roundUp v ≤ 16777216 ∧ (v ≤ 16777216 - 4096 → roundUp v ≤ 16777216 - 4096) ∧
    (∀ m, m % 4096 = 0 → v ≤ m → m ≤ 16777216 → roundUp v ≤ m) := by
  unfold roundUp maxSize
  split
  · refine ⟨by omega, by omega, by omega, by omega, ?_⟩
    intro m h1 h2 h3; omega
  · refine ⟨by omega, by omega, by omega, by omega, ?_⟩
    intro m h1 h2 h3; omega

private theorem enlarge_ok {b : ABuf} {c : List Nat} (hb : Holds b c) (n : Nat) (hn : n + 1 ≤ 16777216) :
    (b.size = 16777216 ∧ enlarge b n = some (b, false)) ∨
    (b.size < 16777216 ∧ ∃ z, enlarge b n = some (⟨b.buf ++ List.replicate z 0, b.len⟩, true) ∧
      n + 1 ≤ b.size + z ∧ (b.size + z) % 4096 = 0 ∧ b.size + z ≤ 16777216 ∧
      (b.size ≤ 16777216 - 4096 → n + 1 ≤ 16777216 - 4096 → b.size + z ≤ 16777216 - 4096)) := by
  have hcap := hb.cap
  have hchunk := hb.chunk
  unfold enlarge
  rw [if_neg (by omega)]
  by_cases hm : b.size ≥ 16777216
  · left
    refine ⟨by omega, ?_⟩
    rw [if_pos hm]
  · right
    refine ⟨by omega, ?_⟩
    rw [if_neg hm]
    obtain ⟨r1, r2, r3, r4, _⟩ := roundUp_spec (n + 1) (by omega)
    by_cases hg : n + 1 > b.size
    · rw [if_pos hg]
      refine ⟨roundUp (n + 1) - b.size, rfl, by omega, ?_, by omega, ?_⟩
      · rw [show b.size + (roundUp (n + 1) - b.size) = roundUp (n + 1) by omega]; exact r2
      · intro _ h; have := r4 h; omega
    · rw [if_neg hg]
      refine ⟨0, ?_, by omega, by omega, by omega, by omega⟩
      simp

private theorem store_some {buf : List Nat} {off : Nat} {d : List Nat} (h : off + d.length ≤ buf.length) :
    store buf off d = some (buf.take off ++ d ++ buf.drop (off + d.length)) := if_pos h

private theorem store_len {buf : List Nat} {off : Nat} {d : List Nat} (h : off + d.length ≤ buf.length) :
    (buf.take off ++ d ++ buf.drop (off + d.length)).length = buf.length := by
  simp; omega

private theorem take_grow (l : List Nat) (k z n : Nat) (h : n ≤ l.length) : (l ++ List.replicate z k).take n = l.take n :=
  List.take_append_of_le_length h

/-- appending `d` (and possibly a terminator `e`) at the end of the content of an enlarged block -/
private theorem append_holds {b : ABuf} {c : List Nat} (hb : Holds b c) (z : Nat) (d e : List Nat)
    (hfit : c.length + d.length + 1 ≤ b.size + z) (he : e.length ≤ 1) (hch : (b.size + z) % 4096 = 0)
    (hcap : b.size + z ≤ 16777216) :
    store (b.buf ++ List.replicate z 0) b.len (d ++ e) =
      some (c ++ d ++ e ++ (b.buf ++ List.replicate z 0).drop (b.len + (d ++ e).length)) ∧
    Holds ⟨c ++ d ++ e ++ (b.buf ++ List.replicate z 0).drop (b.len + (d ++ e).length), b.len + d.length⟩ (c ++ d) ∧
    ABuf.size ⟨c ++ d ++ e ++ (b.buf ++ List.replicate z 0).drop (b.len + (d ++ e).length), b.len + d.length⟩ =
      b.size + z := by
  have hlen := hb.len
  have hbl : b.buf.length = b.size := rfl
  have hroom : b.len ≤ b.buf.length := by have := hb.room; omega
  have hfit' : b.len + (d ++ e).length ≤ (b.buf ++ List.replicate z 0).length := by
    simp; omega
  have htake : (b.buf ++ List.replicate z 0).take b.len = c := by
    rw [take_grow _ _ _ _ hroom]; exact hb.content
  have hsz : (c ++ d ++ e ++ (b.buf ++ List.replicate z 0).drop (b.len + (d ++ e).length)).length = b.size + z := by
    have := store_len hfit'
    rw [htake] at this
    simp only [List.append_assoc] at this ⊢
    rw [this]
    simp [ABuf.size]
  refine ⟨?_, ⟨by simp; omega, ?_, .inl ?_, ?_, ?_⟩, hsz⟩
  · rw [store_some hfit', htake]
    simp only [List.append_assoc]
  · simp only
    rw [List.append_assoc, List.take_left' (by simp; omega)]
  · show _ < (c ++ d ++ e ++ _).length
    rw [hsz]
    simp only
    omega
  · show (c ++ d ++ e ++ _).length % 4096 = 0
    rw [hsz]; exact hch
  · show (c ++ d ++ e ++ _).length ≤ _
    rw [hsz]; exact hcap

private theorem zeroed_of {b : ABuf} {c : List Nat} (hb : Holds b c) (z : Nat) (d e : List Nat)
    (he : ∀ x ∈ e, x = 0) (ht : ∀ x ∈ (b.buf ++ List.replicate z 0).drop (b.len + (d ++ e).length), x = 0) :
    Zeroed ⟨c ++ d ++ e ++ (b.buf ++ List.replicate z 0).drop (b.len + (d ++ e).length), b.len + d.length⟩ := by
  unfold Zeroed
  intro x hx
  simp only at hx
  rw [List.append_assoc, List.drop_left' (by simp [hb.len])] at hx
  rcases List.mem_append.1 hx with h | h
  · exact he x h
  · exact ht x h

private theorem tail_zeroed {b : ABuf} (hr : b.len ≤ b.size) (hz : Zeroed b) (z k : Nat) :
    ∀ x ∈ (b.buf ++ List.replicate z 0).drop (b.len + k), x = 0 := by
  intro x h
  rw [← List.drop_drop] at h
  have h1 := List.mem_of_mem_drop h
  rw [List.drop_append_of_le_length hr] at h1
  rcases List.mem_append.1 h1 with h2 | h2
  · exact hz x h2
  · exact List.eq_of_mem_replicate h2

private theorem Holds.le {b : ABuf} {c : List Nat} (hb : Holds b c) : b.len ≤ b.size := by
  have := hb.room; omega

/-- the result of an operation `o` on a buffer `b` with content `c` -/
structure Result (b : ABuf) (c : List Nat) (o : Op) (r : ABuf × Bool) : Prop where
  done : r.2 = true → Holds r.1 (spec c o)
  refused : r.2 = false → Holds r.1 c
  roomy : b.size ≤ 16777216 - 4096 → c.length + o.adds + 2 ≤ 16777216 - 4096 →
    r.2 = true ∧ r.1.size ≤ 16777216 - 4096
  zeroed : Zeroed b → r.2 = true → o.isPull = false → (∀ d t, o = .concat d t → t = 0) → Zeroed r.1

private theorem refuse {b : ABuf} {c : List Nat} {o : Op} (hb : Holds b c) (h : b.size = 16777216) :
    Result b c o (b, false) :=
  ⟨by simp, fun _ => hb, fun h' => by omega, by simp⟩

private theorem nothing {b : ABuf} {c : List Nat} {o : Op} (hb : Holds b c) (h : spec c o = c) :
    Result b c o (b, true) :=
  ⟨fun _ => by rw [h]; exact hb, by simp, fun h' _ => ⟨rfl, h'⟩, fun h _ _ _ => h⟩

private theorem puts_ok {b : ABuf} {c : List Nat} (hb : Holds b c) (s : List Nat)
    (hf : c.length + s.length + 2 ≤ 16777216) : ∃ r, puts b s = some r ∧ Result b c (.puts s) r := by
  unfold puts
  by_cases hs : s = []
  · rw [if_pos hs]
    exact ⟨_, rfl, nothing hb (by simp [spec, hs])⟩
  rw [if_neg hs]
  have hlen := hb.len
  rcases enlarge_ok hb (b.len + s.length + 1) (by omega) with ⟨h1, h2⟩ | ⟨h1, z, h2, h3, h4, h5, h6⟩
  · rw [h2]
    exact ⟨_, rfl, refuse hb h1⟩
  · rw [h2]
    obtain ⟨a1, a2, a3⟩ := append_holds hb z s [0] (by omega) (by simp) h4 h5
    simp only [Option.bind_some, if_true, a1, Option.map_some]
    refine ⟨_, rfl, ⟨fun _ => a2, by simp, ?_, ?_⟩⟩
    · intro q1 q2
      refine ⟨rfl, ?_⟩
      rw [a3]
      exact h6 q1 (by simp only [Op.adds] at q2; omega)
    · intro q _ _ _
      exact zeroed_of hb z s [0] (by simp) (tail_zeroed hb.le q z _)

private theorem memcpy_ok {b : ABuf} {c : List Nat} (hb : Holds b c) (s : List Nat)
    (hf : c.length + s.length + 2 ≤ 16777216) : ∃ r, memcpy b s = some r ∧ Result b c (.memcpy s) r := by
  unfold memcpy
  have hlen := hb.len
  rcases enlarge_ok hb (b.len + s.length) (by omega) with ⟨h1, h2⟩ | ⟨h1, z, h2, h3, h4, h5, h6⟩
  · rw [h2]
    exact ⟨_, rfl, refuse hb h1⟩
  · rw [h2]
    obtain ⟨a1, a2, a3⟩ := append_holds hb z s [] (by omega) (by simp) h4 h5
    have a1' := a1
    rw [List.append_nil] at a1'
    simp only [Option.bind_some, if_true, a1', Option.map_some]
    have e1 : s = s ++ [] := by simp
    refine ⟨_, rfl, ⟨fun _ => ?_, by simp, ?_, ?_⟩⟩
    · show Holds _ (c ++ s)
      simpa only [List.append_nil] using a2
    · intro q1 q2
      refine ⟨rfl, ?_⟩
      simp only [List.append_nil] at a3 ⊢
      rw [a3]
      exact h6 q1 (by simp only [Op.adds] at q2; omega)
    · intro q _ _ _
      have := zeroed_of hb z s [] (by simp) (tail_zeroed hb.le q z _)
      simpa only [List.append_nil] using this

private theorem concat_text (d : List Nat) (t : Nat) (h : ∀ x ∈ d, x ≠ 0) :
    (d ++ [t]).takeWhile (· ≠ 0) ++ List.replicate (d.length + 1 - ((d ++ [t]).takeWhile (· ≠ 0)).length) 0 = d ++ [t] := by
  have h1 : (d ++ [t]).takeWhile (fun x => decide (x ≠ 0)) = d ++ [t].takeWhile (fun x => decide (x ≠ 0)) :=
    List.takeWhile_append_of_pos (fun x hx => decide_eq_true (h x hx))
  rw [h1]
  by_cases ht : t = 0
  · subst ht; simp
  · simp [ht]

private theorem concat_ok {b : ABuf} {c : List Nat} (hb : Holds b c) (d : List Nat) (t : Nat)
    (hd : ∀ x ∈ d, x ≠ 0) (hf : c.length + d.length + 2 ≤ 16777216) :
    ∃ r, concat b d t = some r ∧ Result b c (.concat d t) r := by
  unfold concat
  by_cases hs : d = []
  · rw [if_pos hs]
    exact ⟨_, rfl, nothing hb (by simp [spec, hs])⟩
  rw [if_neg hs]
  have hlen := hb.len
  rcases enlarge_ok hb (b.len + d.length + 1) (by omega) with ⟨h1, h2⟩ | ⟨h1, z, h2, h3, h4, h5, h6⟩
  · rw [h2]
    exact ⟨_, rfl, refuse hb h1⟩
  · rw [h2]
    obtain ⟨a1, a2, a3⟩ := append_holds hb z d [t] (by omega) (by simp) h4 h5
    simp only [Option.bind_some, if_true, concat_text d t hd, a1, Option.map_some]
    refine ⟨_, rfl, ⟨fun _ => a2, by simp, ?_, ?_⟩⟩
    · intro q1 q2
      refine ⟨rfl, ?_⟩
      rw [a3]
      exact h6 q1 (by simp only [Op.adds] at q2; omega)
    · intro q _ _ q2
      have := q2 d t rfl
      exact zeroed_of hb z d [t] (by simp [this]) (tail_zeroed hb.le q z _)

private theorem appendf_ok {b : ABuf} {c : List Nat} (hb : Holds b c) (s : List Nat)
    (hf : c.length + s.length + 2 ≤ 16777216) : ∃ r, appendf b s = some r ∧ Result b c (.appendf s) r := by
  unfold appendf
  have hle := hb.le
  have hlen := hb.len
  have hbl : b.buf.length = b.size := rfl
  rw [if_neg (by omega)]
  by_cases hg : b.len + s.length ≥ b.size
  · -- the first attempt is cut off
    have hfirst : ∃ m, vsnprintf b.buf b.len (b.size - b.len) s = some m ∧ Holds ⟨m, b.len⟩ c ∧
        m.length = b.size := by
      unfold vsnprintf
      by_cases h0 : b.size - b.len = 0
      · rw [if_pos h0]; exact ⟨_, rfl, hb, rfl⟩
      · rw [if_neg h0]
        have hl : b.len + (s.take (b.size - b.len - 1) ++ [0]).length ≤ b.buf.length := by
          simp; omega
        rw [store_some hl]
        have e := store_len hl
        refine ⟨_, rfl, ⟨hlen, ?_, ?_, ?_, ?_⟩, e⟩
        · show List.take b.len _ = c
          rw [List.append_assoc, List.take_left' (by simp; omega)]
          exact hb.content
        · show b.len < List.length _ ∨ _
          rw [e]
          exact .inl (by omega)
        · show List.length _ % 4096 = 0
          rw [e]; exact hb.chunk
        · show List.length _ ≤ _
          rw [e]; exact hb.cap
    obtain ⟨m, hm, hmh, hml⟩ := hfirst
    have hms : ABuf.size ⟨m, b.len⟩ = b.size := hml
    rw [hm]
    simp only [Option.bind_some]
    rw [if_pos hg]
    rcases enlarge_ok hmh (b.len + s.length) (by omega) with ⟨h1, h2⟩ | ⟨h1, z, h2, h3, h4, h5, h6⟩
    · rw [h2]
      have hroom := hmh.room
      have hl : b.len + [0].length ≤ m.length := by
        simp only [List.length_singleton]
        omega
      simp only [Option.bind_some, Bool.false_eq_true, if_false, store_some hl, Option.map_some]
      have e := store_len hl
      refine ⟨_, rfl, ⟨by simp, fun _ => ⟨hlen, ?_, ?_, ?_, ?_⟩, fun q => by omega, by simp⟩⟩
      · show List.take b.len _ = c
        rw [List.append_assoc, List.take_left' (by simp; omega)]
        exact hmh.content
      · show b.len < List.length _ ∨ _
        rw [e]
        exact .inl (by omega)
      · show List.length _ % 4096 = 0
        rw [e]; exact hmh.chunk
      · show List.length _ ≤ _
        rw [e]; exact hmh.cap
    · rw [h2]
      obtain ⟨a1, a2, a3⟩ := append_holds hmh z s [0] (by omega) (by simp) h4 h5
      have hsz : ABuf.size ⟨m ++ List.replicate z 0, b.len⟩ = b.size + z := by
        simp [ABuf.size, hml]
      simp only [Option.bind_some, if_true, vsnprintf, hsz]
      rw [if_neg (by omega), List.take_of_length_le (by omega)]
      simp only at a1
      simp only [a1, Option.map_some]
      refine ⟨_, rfl, ⟨fun _ => a2, by simp, ?_, ?_⟩⟩
      · intro q1 q2
        refine ⟨rfl, ?_⟩
        simp only at a3 ⊢
        rw [a3]
        exact h6 (by omega) (by simp only [Op.adds] at q2; omega)
      · intro _ _ _ _
        refine zeroed_of hmh z s [0] (by simp) ?_
        intro x hx
        simp only at hx
        rw [List.drop_append, List.drop_eq_nil_of_le (by simp; omega), List.nil_append] at hx
        exact List.eq_of_mem_replicate (List.mem_of_mem_drop hx)
  · obtain ⟨a1, a2, a3⟩ := append_holds hb 0 s [0] (by omega) (by simp) hb.chunk hb.cap
    unfold vsnprintf
    rw [if_neg (by omega), List.take_of_length_le (by omega)]
    have a1' := a1
    rw [List.replicate_zero, List.append_nil] at a1'
    simp only [a1', Option.bind_some]
    rw [if_neg (by omega)]
    refine ⟨_, rfl, ⟨fun _ => ?_, by simp, ?_, ?_⟩⟩
    · show Holds _ (c ++ s)
      simpa only [List.replicate_zero, List.append_nil] using a2
    · intro q1 q2
      refine ⟨rfl, ?_⟩
      simp only [List.replicate_zero, List.append_nil] at a3 ⊢
      rw [a3]; exact q1
    · intro q _ _ _
      have := zeroed_of hb 0 s [0] (by simp) (tail_zeroed hb.le q 0 _)
      simpa only [List.replicate_zero, List.append_nil] using this

private theorem prefix_ok {b : ABuf} {c : List Nat} (hb : Holds b c) (p : List Nat)
    (hf : c.length + p.length + 2 ≤ 16777216) : ∃ r, memcpyPrefix b p = some r ∧ Result b c (.memcpyPrefix p) r := by
  unfold memcpyPrefix
  have hlen := hb.len
  have hle := hb.le
  have hbl : b.buf.length = b.size := rfl
  rcases enlarge_ok hb (b.len + p.length) (by omega) with ⟨h1, h2⟩ | ⟨h1, z, h2, h3, h4, h5, h6⟩
  · rw [h2]
    exact ⟨_, rfl, refuse hb h1⟩
  · rw [h2]
    obtain ⟨B, hB⟩ : ∃ B, b.buf ++ List.replicate z 0 = B := ⟨_, rfl⟩
    have hBl : B.length = b.size + z := by rw [← hB]; simp [ABuf.size]
    have htake : B.take b.len = c := by
      rw [← hB, take_grow _ _ _ _ hle]; exact hb.content
    simp only [Option.bind_some, if_true, hB, htake]
    have hl1 : p.length + c.length ≤ B.length := by omega
    rw [store_some hl1]
    have e1 := store_len hl1
    simp only [Option.bind_some]
    obtain ⟨m, hm⟩ : ∃ m, B.take p.length ++ c ++ B.drop (p.length + c.length) = m := ⟨_, rfl⟩
    rw [hm] at e1 ⊢
    have hl2 : 0 + p.length ≤ m.length := by omega
    rw [store_some hl2]
    have e2 := store_len hl2
    have hfin : m.take 0 ++ p ++ m.drop (0 + p.length) = (p ++ c) ++ B.drop (p.length + c.length) := by
      rw [← hm]
      simp only [List.take_zero, List.nil_append, Nat.zero_add, List.append_assoc]
      rw [List.drop_left' (by simp; omega)]
    rw [hfin] at e2 ⊢
    simp only [Option.map_some]
    refine ⟨_, rfl, ⟨fun _ => ⟨?_, ?_, ?_, ?_, ?_⟩, by simp, ?_, ?_⟩⟩
    · simp only [spec, List.length_append]; omega
    · simp only [spec]
      rw [List.take_left' (by simp; omega)]
    · show _ < List.length _ ∨ _
      simp only
      rw [e2]
      exact .inl (by omega)
    · show List.length _ % 4096 = 0
      simp only
      rw [e2, e1, hBl]; exact h4
    · show List.length _ ≤ _
      simp only
      rw [e2, e1, hBl]; exact h5
    · intro q1 q2
      refine ⟨rfl, ?_⟩
      show List.length _ ≤ _
      simp only
      rw [e2, e1, hBl]
      exact h6 q1 (by simp only [Op.adds] at q2; omega)
    · intro q _ _ _ x hx
      simp only at hx
      rw [List.drop_left' (by simp; omega)] at hx
      have := tail_zeroed hle q z p.length
      rw [hB] at this
      exact this x (by rw [show b.len + p.length = p.length + c.length by omega]; exact hx)

private theorem pull_ok {b : ABuf} {c : List Nat} (hb : Holds b c) (n j : Nat) (hn : n ≤ c.length)
    (hf : c.length + 2 ≤ 16777216) :
    ∃ r, pull b n j = some r ∧ Result b c (.pull n j) r := by
  unfold pull
  have hlen := hb.len
  have hle := hb.le
  have hbl : b.buf.length = b.size := rfl
  rw [if_neg (by omega)]
  have hm : ∃ m, (if n ≠ b.len then store b.buf 0 ((b.buf.drop n).take (b.len - n)) else some b.buf) = some m ∧
      m.take (b.len - n) = c.drop n ∧ m.length = b.size := by
    have hc : (b.buf.drop n).take (b.len - n) = c.drop n := by
      rw [← List.drop_take, hb.content]
    by_cases h : n ≠ b.len
    · rw [if_pos h, hc]
      have hl : 0 + (c.drop n).length ≤ b.buf.length := by simp; omega
      rw [store_some hl]
      refine ⟨_, rfl, ?_, store_len hl⟩
      rw [List.take_zero, List.nil_append, List.take_left' (by simp; omega)]
    · rw [if_neg h]
      refine ⟨_, rfl, ?_, rfl⟩
      rw [← hc]
      have : b.len - n = 0 := by omega
      rw [this]; simp
  obtain ⟨m, h1, h2, h3⟩ := hm
  rw [h1]
  simp only [Option.map_some]
  obtain ⟨R, hR⟩ : ∃ R, roundUp (b.len - n + 1) = R := ⟨_, rfl⟩
  obtain ⟨r1, r2, r3, r4, _⟩ := roundUp_spec (b.len - n + 1) (by omega)
  rw [hR] at r1 r2 r3 r4 ⊢
  have hsz : (m.take R ++ List.replicate (R - m.length) j).length = R := by
    simp; omega
  refine ⟨_, rfl, ⟨fun _ => ⟨?_, ?_, ?_, ?_, ?_⟩, by simp, ?_, by simp [Op.isPull]⟩⟩
  · simp only [spec, List.length_drop]; omega
  · simp only [spec]
    rw [List.take_append_of_le_length (by simp; omega), List.take_take, Nat.min_eq_left (by omega), h2]
  · show _ < List.length _ ∨ _
    simp only
    rw [hsz]; exact .inl (by omega)
  · show List.length _ % 4096 = 0
    simp only
    rw [hsz]; exact r2
  · show List.length _ ≤ _
    simp only
    rw [hsz]; exact r3
  · intro _ q
    refine ⟨rfl, ?_⟩
    show List.length _ ≤ _
    simp only
    rw [hsz]
    exact r4 (by simp only [Op.adds] at q; omega)

private theorem step_ok {b : ABuf} {c : List Nat} (hb : Holds b c) (o : Op) (ho : o.Ok c)
    (hf : c.length + o.adds + 2 ≤ 16777216) : ∃ r, step b o = some r ∧ Result b c o r := by
  cases o with
  | puts s => exact puts_ok hb s hf
  | appendf s => exact appendf_ok hb s hf
  | concat d t => exact concat_ok hb d t ho hf
  | memcpy p => exact memcpy_ok hb p hf
  | memcpyPrefix p => exact prefix_ok hb p hf
  | pull n j => exact pull_ok hb n j ho hf

/-- every operation of the sequence is allowed and keeps the content below the limit `lim` -/
def Fits (lim : Nat) : List Nat → List Op → Prop
  | _, [] => True
  | c, o :: ops => o.Ok c ∧ c.length + o.adds + 2 ≤ lim ∧ Fits lim (spec c o) ops

private theorem init_holds (k : Nat) (hk : k ≤ 16777216) : Holds (init k) [] ∧ Zeroed (init k) := by
  unfold init
  by_cases h : k = 0
  · rw [if_pos h]
    exact ⟨⟨rfl, rfl, .inr ⟨rfl, rfl⟩, rfl, Nat.zero_le _⟩, by simp [Zeroed]⟩
  · rw [if_neg h]
    obtain ⟨r1, r2, r3, _⟩ := roundUp_spec k hk
    have e : ABuf.size ⟨List.replicate (roundUp k) 0, 0⟩ = roundUp k := by simp [ABuf.size]
    refine ⟨⟨rfl, rfl, .inl ?_, ?_, ?_⟩, ?_⟩
    · rw [e]; show 0 < _; omega
    · rw [e]; exact r2
    · rw [e]; exact r3
    · intro x hx
      exact List.eq_of_mem_replicate (List.mem_of_mem_drop hx)

private theorem run_ok (ops : List Op) : ∀ {b : ABuf} {c : List Nat}, Holds b c → b.size ≤ 16777216 - 4096 →
    Fits (16777216 - 4096) c ops → ∃ b', run b ops = some b' ∧ Holds b' (ops.foldl spec c) ∧
      (Zeroed b → (∀ o ∈ ops, o.isPull = false ∧ ∀ d t, o = .concat d t → t = 0) → Zeroed b') := by
  induction ops with
  | nil => intro b c hb _ _; exact ⟨b, rfl, hb, fun h _ => h⟩
  | cons o ops ih =>
    intro b c hb hs hf
    obtain ⟨h1, h2, h3⟩ := hf
    obtain ⟨r, hr, hres⟩ := step_ok hb o h1 (by omega)
    obtain ⟨ok, hs'⟩ := hres.roomy hs h2
    obtain ⟨b', e1, e2, e3⟩ := ih (hres.done ok) hs' h3
    refine ⟨b', ?_, e2, ?_⟩
    · show (step b o).bind _ = _
      rw [hr]
      simp only [Option.bind_some, ok, if_true]
      exact e1
    · intro hz ha
      have hh := ha o (by simp)
      exact e3 (hres.zeroed hz ok hh.1 hh.2) (fun o' ho' => ha o' (by simp [ho']))

/-- C42: whatever sequence of operations is performed on a fresh buffer, as long as the content stays 4 KiB below
16 MiB, nothing outside the block is touched, no operation fails and the content is the one of the abstract list.
What is missing: near the limit of 16 MiB see `C42_overflow` and `C42_refused`; buffers whose text contains NUL bytes
are not concatenated correctly, see `C42_concat_nul` -/
theorem C42_content_partial (k : Nat) (hk : k ≤ 16777216 - 4096) (ops : List Op)
    (hf : Fits (16777216 - 4096) [] ops) :
    ∃ b, run (init k) ops = some b ∧ b.len = (ops.foldl spec []).length ∧
      b.buf.take b.len = ops.foldl spec [] ∧ (b.len < b.size ∨ (b.size = 0 ∧ b.len = 0)) := by
  obtain ⟨h1, _⟩ := init_holds k (by omega)
  have hs : (init k).size ≤ 16777216 - 4096 := by
    unfold init
    split
    · simp [ABuf.size]
    · have := (roundUp_spec k (by omega)).2.2.2.1 hk
      simp only [ABuf.size, List.length_replicate]
      exact this
  obtain ⟨b, e1, e2, _⟩ := run_ok ops h1 hs hf
  exact ⟨b, e1, e2.len, e2.content, e2.room⟩

/-- C42, one operation in any state, up to the limit: it is done, or refused and the content is the same as before;
nothing outside the block is touched.  What is missing: see `C42_overflow` -/
theorem C42_step_partial (b : ABuf) (c : List Nat) (hb : Holds b c) (o : Op) (ho : o.Ok c)
    (hf : c.length + o.adds + 2 ≤ 16777216) :
    ∃ b' ok, step b o = some (b', ok) ∧ Holds b' (if ok then spec c o else c) := by
  obtain ⟨⟨b', ok⟩, h1, h2⟩ := step_ok hb o ho hf
  refine ⟨b', ok, h1, ?_⟩
  cases ok with
  | true => exact h2.done rfl
  | false => exact h2.refused rfl

/-- C42: after operations that only add, the byte behind the content is NUL.  What is missing: after `abuf_pull` it
may be anything, see `C42_pull_unterminated` -/
theorem C42_terminated_partial (k : Nat) (hk : k ≤ 16777216 - 4096) (ops : List Op)
    (hf : Fits (16777216 - 4096) [] ops)
    (hp : ∀ o ∈ ops, o.isPull = false ∧ ∀ d t, o = .concat d t → t = 0) (hne : ops.foldl spec [] ≠ []) :
    ∃ b, run (init k) ops = some b ∧ b.buf.take (b.len + 1) = ops.foldl spec [] ++ [0] := by
  obtain ⟨h1, h2⟩ := init_holds k (by omega)
  have hs : (init k).size ≤ 16777216 - 4096 := by
    unfold init
    split
    · simp [ABuf.size]
    · have := (roundUp_spec k (by omega)).2.2.2.1 hk
      simp only [ABuf.size, List.length_replicate]
      exact this
  obtain ⟨b, e1, e2, e3⟩ := run_ok ops h1 hs hf
  refine ⟨b, e1, ?_⟩
  have hz := e3 h2 hp
  have hlt : b.len < b.buf.length := by
    rcases e2.room with h | ⟨_, h⟩
    · exact h
    · exact absurd (List.length_eq_zero_iff.1 (by rw [← e2.len]; exact h)) hne
  rw [List.take_add_one, e2.content, List.getElem?_eq_getElem hlt]
  congr 1
  have : b.buf[b.len] ∈ b.buf.drop b.len := by
    rw [List.drop_eq_getElem_cons hlt]; exact List.mem_cons_self
  rw [hz _ this]
  rfl

/-- C42 fails: `abuf_pull` leaves the old text behind the content, which is no longer a terminated string -/
theorem C42_pull_unterminated :
    ∃ ops, Fits (16777216 - 4096) [] ops ∧
      ∃ b, run (init 0) ops = some b ∧ ops.foldl spec [] = [108, 108, 111] ∧ b.len = 3 ∧
        b.buf.take 5 = [108, 108, 111, 108, 111] := by
  refine ⟨[.puts [104, 101, 108, 108, 111], .pull 2 0], ?_, ?_⟩
  · simp [Fits, Op.Ok, Op.adds, spec]
  · obtain ⟨B, hB⟩ : ∃ B : List Nat, List.replicate 4096 0 = B := ⟨_, rfl⟩
    have hl : B.length = 4096 := by rw [← hB, List.length_replicate]
    have h1 : step (init 0) (.puts [104, 101, 108, 108, 111]) =
        some (⟨[104, 101, 108, 108, 111, 0] ++ B.drop 6, 5⟩, true) := by
      simp only [step, puts, init, if_true, enlarge, ABuf.size, List.length_nil, List.length_cons, Nat.zero_add,
        List.nil_append, Nat.reduceAdd, Nat.sub_zero]
      rw [if_neg (by simp), if_neg (by omega), if_neg (by unfold maxSize; omega), if_pos (by omega),
        show roundUp 7 = 4096 from rfl, hB]
      simp only [Option.bind_some, if_true, store, List.length_append, List.length_cons, List.length_nil, hl]
      rw [if_pos (by omega)]
      rfl
    have h2 : step ⟨[104, 101, 108, 108, 111, 0] ++ B.drop 6, 5⟩ (.pull 2 0) =
        some (⟨([108, 108, 111, 108, 111, 0] ++ B.drop 6).take 4096, 3⟩, true) := by
      simp only [step, pull]
      rw [if_neg (by omega), if_pos (by omega), store_some (by simp [hl])]
      simp only [Option.map_some, Nat.reduceSub, Nat.reduceAdd, show roundUp 4 = 4096 from rfl]
      have : 4096 - (List.take 0 ([104, 101, 108, 108, 111, 0] ++ B.drop 6) ++
          List.take 3 (List.drop 2 ([104, 101, 108, 108, 111, 0] ++ B.drop 6)) ++
          List.drop (0 + (List.take 3 (List.drop 2 ([104, 101, 108, 108, 111, 0] ++ B.drop 6))).length)
            ([104, 101, 108, 108, 111, 0] ++ B.drop 6)).length = 0 := by
        simp [hl]
      rw [this, List.replicate_zero, List.append_nil]
      rfl
    refine ⟨⟨([108, 108, 111, 108, 111, 0] ++ B.drop 6).take 4096, 3⟩, ?_, rfl, rfl, ?_⟩
    · simp only [run, h1, h2, Option.bind_some, if_true]
    · simp only [List.take_take]
      rfl

/-- C42 fails at the limit: for every text of 16 MiB or more `autobuf_enlarge` allocates 16 MiB, reports success, and
the text is copied behind the end of the block -/
theorem C42_overflow (p : List Nat) (h : 16777216 < p.length) (h2 : p.length + 1 < 2147483648) :
    step (init 0) (.memcpy p) = none := by
  simp only [step, memcpy, init, enlarge, ABuf.size, if_true, List.length_nil, Nat.zero_add, List.nil_append]
  rw [if_neg (by omega), if_neg (by unfold maxSize; omega), if_pos (by omega)]
  simp only [Option.bind_some, if_true, store, List.length_replicate, Nat.zero_add]
  have : roundUp (p.length + 1) = 16777216 := by
    unfold roundUp maxSize
    rw [if_neg (by omega)]
  rw [this, if_neg (by omega)]
  rfl

/-- C42 fails at the limit: a block of 16 MiB accepts no text at all even if it is empty -/
theorem C42_refused (x : Nat) :
    step (init 16777216) (.puts [x]) = some (init 16777216, false) := by
  have e : (init 16777216).size = 16777216 := by
    unfold init
    rw [if_neg (by omega)]
    show List.length _ = _
    rw [List.length_replicate]
    unfold roundUp maxSize
    rw [if_neg (by omega)]
  obtain ⟨b, hb⟩ : ∃ b, init 16777216 = b := ⟨_, rfl⟩
  have hl : b.len = 0 := by
    rw [← hb]; unfold init; rw [if_neg (by omega)]
  rw [hb] at e ⊢
  simp only [step, puts]
  rw [if_neg (by simp)]
  unfold enlarge
  rw [if_neg (by rw [hl]; simp), e, if_pos (by unfold maxSize; omega)]
  rfl

/-- C42 fails: the text behind a NUL byte is lost when buffers are concatenated -/
theorem C42_concat_nul :
    ∃ b, step (init 0) (.concat [97, 0, 98] 0) = some (b, true) ∧ b.len = 3 ∧ b.buf.take 3 = [97, 0, 0] := by
  obtain ⟨B, hB⟩ : ∃ B : List Nat, List.replicate 4096 0 = B := ⟨_, rfl⟩
  have hl : B.length = 4096 := by rw [← hB, List.length_replicate]
  refine ⟨⟨[97, 0, 0, 0] ++ B.drop 4, 3⟩, ?_, rfl, rfl⟩
  simp only [step, concat, init, if_true, enlarge, ABuf.size, List.length_nil, List.length_cons, Nat.zero_add,
    List.nil_append, Nat.reduceAdd, Nat.sub_zero]
  rw [if_neg (by simp), if_neg (by omega), if_neg (by unfold maxSize; omega), if_pos (by omega),
    show roundUp 5 = 4096 from rfl, hB]
  simp only [Option.bind_some, if_true]
  rw [show (List.takeWhile (fun x => decide (x ≠ 0)) ([97, 0, 98] ++ [0])) = [97] from by decide]
  rw [store_some (by simp [hl])]
  rfl

example : Fits (16777216 - 4096) [] [.appendf [72, 105], .memcpyPrefix [62, 32], .concat [33] 0, .memcpy [0, 1], .pull 3 7] := by
  simp [Fits, Op.Ok, Op.adds, spec]

example : [Op.appendf [72, 105], .memcpyPrefix [62, 32], .concat [33] 0, .memcpy [0, 1], .pull 3 7].foldl spec [] =
    [105, 33, 0, 1] := by decide

example : Holds ⟨[72, 105] ++ List.replicate 4094 7, 2⟩ [72, 105] := by
  have e : ABuf.size ⟨[72, 105] ++ List.replicate 4094 7, 2⟩ = 4096 := by
    show List.length _ = _
    rw [List.length_append, List.length_replicate]
    rfl
  exact ⟨rfl, rfl, .inl (by rw [e]; show 2 < 4096; omega), by rw [e], by rw [e]; omega⟩

end Verif.Abuf
