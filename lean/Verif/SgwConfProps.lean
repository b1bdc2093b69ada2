import Verif.SgwConfModel
/-
C45: the routing tables and rules of the multi-smart-gateway mode.
-/
namespace Verif.SgwConf

/-! ### Specification -/

/-- Routing tables that may be used: not zero, not the tables 253 to 255 of the
system, representable in 31 bits; no table twice. -/
def SafeTables (l : List Nat) : Prop :=
  l.Nodup ∧ ∀ t, t ∈ l → 0 < t ∧ ¬ (253 ≤ t ∧ t ≤ 255) ∧ t ≤ 2147483648

/-- Rule priorities that may be used: not zero, not the rules 32766 and 32767 of
the system, representable in 32 bits; no rule twice. -/
def SafeRules (l : List Nat) : Prop :=
  l.Nodup ∧ ∀ t, t ∈ l → 0 < t ∧ t ≠ 32766 ∧ t ≠ 32767 ∧ t < 4294967296

/-- A configuration as it comes out of the parser. -/
def Parsed (c : Cfg) : Prop :=
  c.tables < 4294967296 ∧ c.rules < 4294967296 ∧ c.use < 256 ∧ c.ifs < 1000000

/-- The block of tables the configuration asks for: one for the server, one per
egress interface, one per gateway. -/
def wantedTables (c : Cfg) : List Nat := List.range' c.tables (1 + c.egress + c.use)

/-- The block of rules: a bypass rule per egress interface and OLSR interface and
a rule per table. -/
def wantedRules (c : Cfg) (r : Nat) : List Nat := List.range' r (c.egress + c.ifs + (1 + c.egress + c.use))

/-! ### helpers -/

private theorem check_use (c : Cfg) (r : Nat) (h : check c = some r) :
    1 ≤ c.use ∧ c.use ≤ 64 ∧ c.egress ≠ 0 ∧ count c ≤ 32 ∧ tablesOk c = true ∧ rulesOffset c = some r ∧
      rulesOk c r = true := by
  unfold check at h
  split at h
  · cases h
  · split at h
    · cases h
    · split at h
      · cases h
      · split at h
        · cases h
        · rename_i h1 h2 h3 h4
          have h4 : tablesOk c = true := by
            cases ht : tablesOk c with
            | true => rfl
            | false => exact absurd ht h4
          cases hr : rulesOffset c with
          | none => rw [hr] at h; cases h
          | some r' =>
            rw [hr] at h
            simp only at h
            split at h
            · rename_i h5
              cases h
              exact ⟨by omega, by omega, h2, by omega, h4, rfl, h5⟩
            · cases h

private theorem overlap_false (l h a b : Nat) (ho : overlap l h a b = false) :
    h < a ∨ b < l := by
  unfold overlap inRange at ho
  simp only [Bool.or_eq_false_iff, Bool.and_eq_false_iff, decide_eq_false_iff_not] at ho
  omega

private theorem accepted (c : Cfg) (r : Nat) (hp : Parsed c) (he : c.egress ≤ 255) (h : check c = some r) :
    0 < c.tables ∧ c.tables + (1 + c.egress + c.use) ≤ 2147483649 ∧
      (c.tables + (1 + c.egress + c.use) < 253 ∨ 255 < c.tables) ∧
      0 < r ∧ r + (c.egress + c.ifs + (1 + c.egress + c.use)) < 4294967296 ∧
      (r + (c.egress + c.ifs + (1 + c.egress + c.use)) < 32766 ∨ 32767 < r) := by
  obtain ⟨h1, h2, h3, h4, h5, h6, h7⟩ := check_use c r h
  obtain ⟨p1, p2, p3, p4⟩ := hp
  have hc : count c = c.egress := by unfold count; omega
  have hnt : nrOfTables c = 1 + c.egress + c.use := by unfold nrOfTables; rw [hc]
  have hnb : nrOfBypass c = c.egress + c.ifs := by unfold nrOfBypass u32; rw [hc]; omega
  have hnr : nrOfRules c = c.egress + c.ifs + (1 + c.egress + c.use) := by
    unfold nrOfRules u32; rw [hnb, hnt]; omega
  unfold tablesOk at h5
  simp only [Bool.and_eq_true, decide_eq_true_eq, Bool.not_eq_true', hnt] at h5
  obtain ⟨⟨t1, t2⟩, t3⟩ := h5
  have t2 : c.tables ≤ 2147483648 - (1 + c.egress + c.use) + 1 := by
    unfold u32 at t2; omega
  have hm : (c.tables + (1 + c.egress + c.use)) % u32 = c.tables + (1 + c.egress + c.use) := by
    unfold u32; omega
  rw [hm] at t3
  have t4 := overlap_false _ _ _ _ t3
  unfold rulesOk at h7
  simp only [Bool.and_eq_true, decide_eq_true_eq, Bool.not_eq_true', hnr] at h7
  obtain ⟨⟨r1, r2⟩, r3⟩ := h7
  have r2 : r + (c.egress + c.ifs + (1 + c.egress + c.use)) ≤ 4294967295 := by
    unfold u32 at r2; omega
  have hm : (r + (c.egress + c.ifs + (1 + c.egress + c.use))) % u32 =
      r + (c.egress + c.ifs + (1 + c.egress + c.use)) := by
    unfold u32; omega
  rw [hm] at r3
  have r4 := overlap_false _ _ _ _ r3
  omega

private theorem range_mem (a n t : Nat) (h : t ∈ List.range' a n) : a ≤ t ∧ t < a + n :=
  List.mem_range'_1.1 h

/-! ### C45 -/

/-- C45: an accepted configuration describes a block of tables and a block of
rules that can be used, and the blocks do not wrap around. -/
theorem C45_accepted_blocks_safe (c : Cfg) (r : Nat) (hp : Parsed c) (he : c.egress ≤ 255)
    (h : check c = some r) : SafeTables (wantedTables c) ∧ SafeRules (wantedRules c r) := by
  obtain ⟨h1, h2, h3, h4, h5, h6⟩ := accepted c r hp he h
  refine ⟨⟨List.nodup_range', ?_⟩, ⟨List.nodup_range', ?_⟩⟩
  · intro t ht
    have := range_mem _ _ _ ht
    omega
  · intro t ht
    have := range_mem _ _ _ ht
    omega

private theorem map_range_eq (f : Nat → Nat) (a : Nat) : ∀ n, (∀ i, i < n → f i = a + i) →
    (List.range n).map f = List.range' a n := by
  intro n hf
  rw [List.range_eq_range']
  apply List.ext_getElem
  · simp
  · intro i h1 h2
    simp at h1 h2
    simp [hf i h1]

/-- C45 (partial): the numbers used are the blocks of the configuration if these
end below 256.  Missing: larger offsets, which are accepted but do not fit into
the 8 bits they are stored in, see `C45_truncated_to_reserved`; more than 255
egress interfaces, see `C45_count_wraps`. -/
theorem C45_used_partial (c : Cfg) (r : Nat) (hp : Parsed c) (he : c.egress ≤ 255)
    (h : check c = some r) (ht : c.tables + (1 + c.egress + c.use) ≤ 256)
    (hr : r + (c.egress + c.ifs + (1 + c.egress + c.use)) ≤ 256) :
    usedTables c = wantedTables c ∧ usedRules c r = wantedRules c r ∧
      SafeTables (usedTables c) ∧ SafeRules (usedRules c r) := by
  have hc : count c = c.egress := by unfold count; omega
  have e1 : usedTables c = wantedTables c := by
    unfold usedTables wantedTables serverTable
    rw [map_range_eq (egressTable c) (c.tables + 1) c.egress (by
        intro i hi; unfold egressTable u32; omega),
      map_range_eq (tunnelTable c) (c.tables + 1 + c.egress) c.use (by
        intro i hi; unfold tunnelTable u32; rw [hc]; omega)]
    rw [show 1 + c.egress + c.use = (c.egress + c.use) + 1 by omega, List.range'_succ,
      List.range'_append_1]
  have e2 : usedRules c r = wantedRules c r := by
    unfold usedRules wantedRules
    rw [map_range_eq (egressBypass c r) r c.egress (by
        intro i hi; unfold egressBypass u32; omega),
      map_range_eq (olsrBypass c r) (r + c.egress) c.ifs (by
        intro i hi; unfold olsrBypass u32; rw [hc]; omega),
      map_range_eq (egressRule c r) (r + c.egress + c.ifs + 1) c.egress (by
        intro i hi; unfold egressRule u32; rw [hc]; omega),
      map_range_eq (tunnelRule c r) (r + c.egress + c.ifs + 1 + c.egress) c.use (by
        intro i hi; unfold tunnelRule u32; rw [hc]; omega)]
    have es : serverRule c r = r + c.egress + c.ifs := by unfold serverRule u32; rw [hc]; omega
    rw [es, List.range'_append_1, List.range'_append_1, ← List.range'_succ,
      show r + c.egress + c.ifs = r + (c.egress + c.ifs) by omega, List.range'_append_1]
    congr 1
    omega
  have hs := C45_accepted_blocks_safe c r hp he h
  exact ⟨e1, e2, by rw [e1]; exact hs.1, by rw [e2]; exact hs.2⟩

/-- The default offset with a few interfaces is such a configuration. -/
example : check ⟨2, 3, 4, 90, 0⟩ = some 85 ∧ usedTables ⟨2, 3, 4, 90, 0⟩ = [90, 91, 92, 93, 94, 95, 96] ∧
    usedRules ⟨2, 3, 4, 90, 0⟩ 85 = [85, 86, 87, 88, 89, 90, 91, 92, 93, 94, 95, 96] ∧
    Parsed ⟨2, 3, 4, 90, 0⟩ := by
  refine ⟨by decide, by decide, by decide, ?_⟩
  exact ⟨by decide, by decide, by decide, by decide⟩

/-- C45 is false of the code: offset 508 is accepted, and the tables used for the
egress interface and the tunnels are the system tables 253, 254 and 255. -/
theorem C45_truncated_to_reserved :
    ∃ c r, Parsed c ∧ check c = some r ∧ 253 ∈ usedTables c ∧ 254 ∈ usedTables c ∧ 255 ∈ usedTables c := by
  refine ⟨⟨1, 1, 2, 508, 0⟩, 506, ⟨by decide, by decide, by decide, by decide⟩, ?_, ?_, ?_, ?_⟩ <;> decide

/-- C45 is false of the code: offset 511 is accepted, and table 0 is used. -/
theorem C45_truncated_to_zero : ∃ c r, Parsed c ∧ check c = some r ∧ 0 ∈ usedTables c ∧ 0 ∈ usedRules c r := by
  refine ⟨⟨1, 1, 2, 511, 0⟩, 509, ⟨by decide, by decide, by decide, by decide⟩, ?_, ?_, ?_⟩ <;> decide

/-- C45: with any accepted offset from 256 on, none of the tables of the egress
interfaces and tunnels is in the block of the configuration. -/
theorem C45_large_offset_outside (c : Cfg) (h : 256 ≤ c.tables) (i : Nat) :
    egressTable c i ∉ wantedTables c ∧ tunnelTable c i ∉ wantedTables c := by
  refine ⟨?_, ?_⟩
  · intro hm
    have := range_mem _ _ _ hm
    unfold egressTable at this
    omega
  · intro hm
    have := range_mem _ _ _ hm
    unfold tunnelTable at this
    omega

example : check ⟨1, 1, 2, 300, 0⟩ = some 298 := by decide

/-- C45 is false of the code: 257 egress interfaces are accepted because the
count is kept in 8 bits; the tables of the egress interfaces then include system
tables. -/
theorem C45_count_wraps :
    ∃ c r, Parsed c ∧ c.egress = 257 ∧ check c = some r ∧ 253 ∈ usedTables c := by
  refine ⟨⟨257, 1, 2, 90, 0⟩, 88, ⟨by decide, by decide, by decide, by decide⟩, rfl, by decide, ?_⟩
  refine List.mem_cons_of_mem _ (List.mem_append_left _ ?_)
  exact List.mem_map.2 ⟨162, List.mem_range.2 (by decide), by decide⟩

end Verif.SgwConf
