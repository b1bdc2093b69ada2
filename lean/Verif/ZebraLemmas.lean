import Verif.ZebraModel

/- Lemmas on the model of the quagga plugin. -/

namespace Verif.Zebra

/-! ### Receiving -/

/-- A packet that starts with its own length. -/
def Framed (p : List Nat) : Prop := 2 ≤ p.length ∧ p.length < 65536 ∧ p.take 2 = be16 p.length

theorem get16_framed {p : List Nat} (h : Framed p) (more : List Nat) :
    get16 (p ++ more) 0 = p.length := by
  obtain ⟨h1, h2, h3⟩ := h
  match p, h1 with
  | x :: y :: t, _ =>
    simp only [List.take_succ_cons, List.take_zero, be16, List.cons.injEq, and_true] at h3
    obtain ⟨hx, hy⟩ := h3
    have hg : get16 (x :: y :: t ++ more) 0 = x * 256 + y := by
      simp [get16]
    rw [hg]
    obtain ⟨n, hn⟩ : ∃ n, n = (x :: y :: t).length := ⟨_, rfl⟩
    rw [← hn] at hx hy h2 ⊢
    omega

theorem get16_shift (pre m : List Nat) : get16 (pre ++ m) pre.length = get16 m 0 := by
  unfold get16
  simp only [List.getD_eq_getElem?_getD]
  rw [List.getElem?_append_right (Nat.le_refl _), List.getElem?_append_right (by omega)]
  simp

theorem get16_prefix (b ext : List Nat) {i : Nat} (h : i + 2 ≤ b.length) :
    get16 b i = get16 (b ++ ext) i := by
  unfold get16
  simp only [List.getD_eq_getElem?_getD]
  rw [List.getElem?_append_left (by omega), List.getElem?_append_left (by omega)]

theorem get16_at {b ext pre p more : List Nat} (he : b ++ ext = pre ++ (p ++ more))
    (hp : Framed p) (hl : pre.length + 2 ≤ b.length) : get16 b pre.length = p.length := by
  rw [get16_prefix b ext hl, he, get16_shift, get16_framed hp]

theorem scan_framed (b ext more : List Nat) : ∀ (pkts : List (List Nat)) (pre : List Nat) (fuel : Nat),
    (∀ p ∈ pkts, Framed p) → b ++ ext = pre ++ (pkts.flatten ++ more) →
    pre.length + pkts.flatten.length ≤ 65535 → b.length < pre.length + pkts.flatten.length + 2 →
    (scan b fuel pre.length = none ∧ fuel ≤ pkts.length) ∨
    ∃ qs ps, pkts = qs ++ ps ∧ scan b fuel pre.length = some (pre ++ qs.flatten).length ∧
      b.length < (pre ++ qs.flatten).length + 2
  | pkts, pre, 0, _, _, _, _ => Or.inl ⟨rfl, Nat.zero_le _⟩
  | [], pre, fuel + 1, _, _, _, hb => by
    refine Or.inr ⟨[], [], rfl, ?_, ?_⟩
    · unfold scan
      simp only [List.flatten_nil, List.length_nil] at hb
      rw [if_neg (by omega)]
      simp
    · simpa using hb
  | p :: pkts, pre, fuel + 1, hf, he, ht, hb => by
    unfold scan
    by_cases hl : pre.length + 2 ≤ b.length
    · rw [if_pos hl]
      have hg : get16 b pre.length = p.length := by
        refine get16_at (ext := ext) (more := pkts.flatten ++ more) ?_ (hf p List.mem_cons_self) hl
        rw [he]; simp
      simp only [List.flatten_cons, List.length_append] at ht hb
      rw [hg, Nat.mod_eq_of_lt (by omega)]
      have ih := scan_framed b ext more pkts (pre ++ p) fuel
        (fun q hq => hf q (List.mem_cons_of_mem _ hq)) (by rw [he]; simp)
        (by simp only [List.length_append]; omega) (by simp only [List.length_append]; omega)
      rw [List.length_append] at ih
      rcases ih with ⟨h1, h2⟩ | ⟨qs, ps, h1, h2, h3⟩
      · exact Or.inl ⟨h1, by simp only [List.length_cons]; omega⟩
      · refine Or.inr ⟨p :: qs, ps, by rw [h1]; rfl, ?_, ?_⟩
        · rw [h2]; simp
        · simpa [Nat.add_assoc] using h3
    · rw [if_neg hl]
      exact Or.inr ⟨[], p :: pkts, rfl, by simp, by simp; omega⟩

theorem flatten_len {pkts : List (List Nat)} (h : ∀ p ∈ pkts, Framed p) :
    2 * pkts.length ≤ pkts.flatten.length := by
  induction pkts with
  | nil => simp
  | cons p ps ih =>
    have h1 := (h p List.mem_cons_self).1
    have h2 := ih (fun q hq => h q (List.mem_cons_of_mem _ hq))
    simp only [List.length_cons, List.flatten_cons, List.length_append]
    omega

/-- A burst of whole packets is returned, at the latest with its last part. -/
theorem clientRead_burst (fuel : Nat) (hfuel : 65536 ≤ fuel) (rest : List Rd) :
    ∀ (chunks : List (List Nat)) (b pre : List Nat) (pkts : List (List Nat)),
    chunks ≠ [] → (∀ p ∈ pkts, Framed p) → b ++ chunks.flatten = pre ++ pkts.flatten →
    pre.length + pkts.flatten.length ≤ 65535 →
    ∃ (k : Nat) (pkts' : List (List Nat)), 1 ≤ k ∧ k ≤ chunks.length ∧ (∀ p ∈ pkts', Framed p) ∧
      (chunks.drop k).flatten = pkts'.flatten ∧
      clientRead fuel (chunks.map Rd.data ++ rest) b pre.length =
        .packets (b ++ (chunks.take k).flatten) ((chunks.drop k).map Rd.data ++ rest)
  | [], _, _, _, h, _, _, _ => absurd rfl h
  | d :: chunks, b, pre, pkts, _, hf, he, ht => by
    have hlen := congrArg List.length he
    simp only [List.flatten_cons, List.length_append] at hlen
    have hsc := scan_framed (b ++ d) chunks.flatten [] pkts pre fuel hf (by rw [List.append_nil, ← he]; simp)
      ht (by simp only [List.length_append]; omega)
    have h2 := flatten_len hf
    rcases hsc with ⟨_, h1⟩ | ⟨qs, ps, h1, hs, h3⟩
    · omega
    · simp only [List.map_cons, List.cons_append, clientRead]
      rw [hs]
      simp only []
      by_cases hb : (b ++ d).length = (pre ++ qs.flatten).length
      · rw [if_pos hb]
        refine ⟨1, ps, Nat.le_refl _, by simp, fun p hp => hf p (by rw [h1]; exact List.mem_append_right _ hp),
          ?_, by simp⟩
        have he2 : (b ++ d) ++ chunks.flatten = (pre ++ qs.flatten) ++ ps.flatten := by
          rw [h1] at he; simpa using he
        simpa using (List.append_inj he2 hb).2
      · rw [if_neg hb]
        have he2 : (b ++ d) ++ chunks.flatten = (pre ++ qs.flatten) ++ ps.flatten := by
          rw [h1] at he; simpa using he
        have hps : ∀ p ∈ ps, Framed p := fun p hp => hf p (by rw [h1]; exact List.mem_append_right _ hp)
        have hne : chunks ≠ [] := by
          intro hc
          subst hc
          have hl2 := congrArg List.length he2
          simp only [List.flatten_nil, List.append_nil, List.length_append] at hl2
          have hp2 := flatten_len hps
          simp only [List.length_append] at hb h3
          cases ps with
          | nil => simp only [List.flatten_nil, List.length_nil] at hl2; omega
          | cons p ps =>
            simp only [List.length_cons] at hp2
            omega
        obtain ⟨k, pkts', k1, k2, k3, k4, k5⟩ := clientRead_burst fuel hfuel rest chunks (b ++ d)
          (pre ++ qs.flatten) ps hne hps he2 (by
            have hl2 := congrArg List.length he2
            simp only [List.length_append] at hl2 ⊢
            rw [h1] at ht
            simp only [List.flatten_append, List.length_append] at ht
            omega)
        refine ⟨k + 1, pkts', by omega, by simpa using k2, k3, by simpa using k4, ?_⟩
        rw [k5]
        simp

theorem scan_long {b : List Nat} (h : 65537 ≤ b.length) : ∀ fuel off, off ≤ 65535 →
    scan b fuel off = none
  | 0, _, _ => rfl
  | n + 1, off, ho => by
    unfold scan
    rw [if_pos (by omega)]
    exact scan_long h n _ (by omega)

/-! ### Reading fields -/

theorem rd_append (x m : List Nat) : rd x.length (x ++ m) = some (x, m) := by
  unfold rd
  rw [if_pos (by simp)]
  simp

theorem rd_append' {n : Nat} {x m : List Nat} (h : x.length = n) : rd n (x ++ m) = some (x, m) := by
  subst h; exact rd_append x m

theorem rdMany_append (k : Nat) : ∀ (xs : List (List Nat)) (m : List Nat), (∀ x ∈ xs, x.length = k) →
    rdMany k xs.length (xs.flatten ++ m) = some (xs, m)
  | [], m, _ => rfl
  | x :: xs, m, h => by
    simp only [List.length_cons, rdMany, List.flatten_cons, List.append_assoc]
    rw [rd_append' (h x List.mem_cons_self)]
    simp only []
    rw [rdMany_append k xs m (fun y hy => h y (List.mem_cons_of_mem _ hy))]

theorem val32_be32 {x : Nat} (h : x < 4294967296) : val32 (be32 x) = x := by
  simp only [val32, be32, List.getD_cons_zero, List.getD_cons_succ]
  omega

end Verif.Zebra
