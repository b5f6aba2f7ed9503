import Verif.BlockAllocator.Model
import Mathlib.Data.List.Nodup
import Mathlib.Data.List.Perm.Basic
import Mathlib.Data.List.Range
import Mathlib.Algebra.Order.Group.Nat
import Mathlib.Algebra.BigOperators.Group.List.Basic

namespace QM.BlockAllocator

/-- The free chain threaded through the array, as a list of element numbers. -/
def Chain (cells : List (Option Nat)) (u : Nat) : Nat → List Nat → Prop
  | ff, [] => ff = npos
  | ff, j :: rest => ff = j * u ∧ ∃ nxt, cells[j * u]? = some (some nxt) ∧ Chain cells u nxt rest

structure LiveBlock (cells : List (Option Nat)) (e i : Nat) (b : Block) (lv chain : List Nat) (m : Nat) :
    Prop where
  len : cells.length = perBlock * (e + 1)
  m_le : m ≤ perBlock
  end_ : b.end_ = m * (e + 1)
  perm : (chain ++ lv).Perm (List.range m)
  chain : Chain cells (e + 1) b.firstFreeUnit chain
  idx : ∀ j, j < m → cells[j * (e + 1) + e]? = some (some i)
  alloc : b.allocated = lv.length
  ne : lv ≠ []

/-- One block: `lv` are the numbers of its live elements. -/
def BlockOK (h : Heap) (e i : Nat) (b : Block) (lv : List Nat) : Prop :=
  match b.block with
  | none => lv = [] ∧ b.allocated = 0 ∧ b.firstFreeUnit = npos
  | some a => ∃ cells chain m, h[a]? = some (some cells) ∧ LiveBlock cells e i b lv chain m

theorem unit_inj {u j k j' k' : Nat} (hk : k < u) (hk' : k' < u) (h : j * u + k = j' * u + k') :
    j = j' ∧ k = k' := by
  have hu : 0 < u := by omega
  have h1 : (j * u + k) / u = j := by
    rw [Nat.mul_comm, Nat.mul_add_div hu, Nat.div_eq_of_lt hk, Nat.add_zero]
  have h2 : (j' * u + k') / u = j' := by
    rw [Nat.mul_comm, Nat.mul_add_div hu, Nat.div_eq_of_lt hk', Nat.add_zero]
  have : j = j' := by rw [← h1, ← h2, h]
  subst this
  exact ⟨rfl, by omega⟩

theorem Chain.congr {cells cells' : List (Option Nat)} {u : Nat} {ch : List Nat} {ff : Nat}
    (h : Chain cells u ff ch) (hc : ∀ j ∈ ch, cells'[j * u]? = cells[j * u]?) : Chain cells' u ff ch := by
  induction ch generalizing ff with
  | nil => exact h
  | cons j rest ih =>
    obtain ⟨h1, nxt, h2, h3⟩ := h
    exact ⟨h1, nxt, by rw [hc j (by simp)]; exact h2, ih h3 (fun k hk => hc k (by simp [hk]))⟩

theorem BlockOK.frame {h h' : Heap} {e i : Nat} {b : Block} {lv : List Nat} (hb : BlockOK h e i b lv)
    (hf : ∀ a, b.block = some a → h'[a]? = h[a]?) : BlockOK h' e i b lv := by
  unfold BlockOK at *
  split at hb
  · exact hb
  · rename_i a ha
    obtain ⟨cells, ch, m, h1, h2⟩ := hb
    exact ⟨cells, ch, m, by rw [hf a ha]; exact h1, h2⟩

theorem LiveBlock.bound {cells e i b lv chain m} (h : LiveBlock cells e i b lv chain m) {j k : Nat}
    (hj : j < m) (hk : k ≤ e) : j * (e + 1) + k < cells.length := by
  rw [h.len]
  have h1 : (j + 1) * (e + 1) ≤ perBlock * (e + 1) := Nat.mul_le_mul_right _ (by have := h.m_le; omega)
  rw [Nat.add_mul] at h1
  omega

theorem LiveBlock.lt_of_mem {cells e i b lv chain m} (h : LiveBlock cells e i b lv chain m) {j : Nat}
    (hj : j ∈ lv) : j < m := by
  have : j ∈ List.range m := h.perm.subset (by simp [hj])
  simpa using this

theorem LiveBlock.lt_of_mem_chain {cells e i b lv chain m} (h : LiveBlock cells e i b lv chain m) {j : Nat}
    (hj : j ∈ chain) : j < m := by
  have : j ∈ List.range m := h.perm.subset (by simp [hj])
  simpa using this

theorem LiveBlock.nodup {cells e i b lv chain m} (h : LiveBlock cells e i b lv chain m) :
    (chain ++ lv).Nodup := h.perm.nodup_iff.2 List.nodup_range

/-- `Block::allocate` on a block that is not full. -/
theorem alloc_ok {h : Heap} {e i : Nat} {b : Block} {lv : List Nat} (hb : BlockOK h e i b lv)
    (hnf : b.allocated < perBlock) (hsm : perBlock * (e + 1) < npos) :
    ∃ h' b' p j, b.alloc e h i = some (h', b', p) ∧ BlockOK h' e i b' (j :: lv) ∧
      b'.block = some p.base ∧ p.off = j * (e + 1) ∧ j ∉ lv ∧ b'.allocated = b.allocated + 1 ∧
      (b.block = some p.base ∨ (b.block = none ∧ p.base = h.length)) ∧
      (∀ c, c < h.length → c ≠ p.base → h'[c]? = h[c]?) ∧
      (∀ j' ∈ lv, ∀ k, k < e → rd h' ⟨p.base, j' * (e + 1) + k⟩ = rd h ⟨p.base, j' * (e + 1) + k⟩) := by
  unfold BlockOK at hb
  cases hbl : b.block with
  | none =>
    rw [hbl] at hb
    obtain ⟨rfl, ha, hf⟩ := hb
    have hwr : wrt (h ++ [some (List.replicate (perBlock * (e + 1)) none)]) ⟨h.length, 0 + e⟩ i =
        some (h ++ [some ((List.replicate (perBlock * (e + 1)) none).set e (some i))]) := by
      unfold wrt
      simp only [List.getElem?_append_right (le_refl _), Nat.sub_self, List.getElem?_cons_zero,
        List.length_replicate, Nat.zero_add]
      rw [if_pos (by unfold perBlock; omega)]
      simp
    refine ⟨h ++ [some ((List.replicate (perBlock * (e + 1)) none).set e (some i))],
      ⟨some h.length, b.firstFreeUnit, b.allocated + 1, e + 1⟩, ⟨h.length, 0⟩, 0, ?_, ?_, ?_, by simp,
      by simp, ?_, Or.inr ⟨rfl, rfl⟩, ?_, by simp⟩
    · unfold Block.alloc ensure
      rw [if_pos hf, hbl]
      rw [Nat.zero_add] at hwr
      simp only [hwr, Nat.zero_add]
    · refine ⟨(List.replicate (perBlock * (e + 1)) none).set e (some i), [], 1, ?_, ?_⟩
      · simp
      · refine ⟨by simp, by unfold perBlock; omega, by simp, by simp [List.range_succ], hf, ?_, by simp [ha], by simp⟩
        intro j hj
        have : j = 0 := by omega
        subst this
        rw [Nat.zero_mul, Nat.zero_add, List.getElem?_set_self]
        simp; unfold perBlock; omega
    · rfl
    · rfl
    · intro c hc _
      rw [List.getElem?_append_left hc]
  | some a =>
    rw [hbl] at hb
    obtain ⟨cells, chain, m, hcell, hl⟩ := hb
    by_cases hf : b.firstFreeUnit = npos
    · have hchain : chain = [] := by
        cases hch : chain with
        | nil => rfl
        | cons j rest =>
          exfalso
          have h1 := hl.chain
          rw [hch] at h1
          have h2 := hl.lt_of_mem_chain (j := j) (by simp [hch])
          have h3 := hl.bound (k := 0) h2 (by omega)
          rw [hl.len] at h3
          have := h1.1
          omega
      subst hchain
      have hm : lv.length = m := by simpa using hl.perm.length_eq
      have hmlt : m < perBlock := by have := hl.alloc; omega
      have hb2 : m * (e + 1) + e < cells.length := by
        rw [hl.len]
        have h1 : (m + 1) * (e + 1) ≤ perBlock * (e + 1) := Nat.mul_le_mul_right _ (by omega)
        rw [Nat.add_mul] at h1
        omega
      have halt : a < h.length := lt_of_getElem?_some hcell
      refine ⟨h.set a (some (cells.set (m * (e + 1) + e) (some i))),
        { b with end_ := b.end_ + (e + 1), allocated := b.allocated + 1 }, ⟨a, m * (e + 1)⟩, m,
        ?_, ?_, hbl, rfl, ?_, rfl, Or.inl rfl, ?_, ?_⟩
      · unfold Block.alloc ensure
        rw [if_pos hf, hbl]
        simp only
        unfold wrt
        simp only [hcell, hl.end_]
        rw [if_pos hb2]
        simp [hbl]
      · unfold BlockOK
        simp only [hbl]
        refine ⟨_, [], m + 1, List.getElem?_set_self halt, ?_⟩
        refine ⟨by simp [hl.len], by omega, ?_, ?_, ?_, ?_, ?_, by simp⟩
        · show b.end_ + (e + 1) = _
          rw [hl.end_, Nat.add_mul]; omega
        · rw [List.range_succ]
          simp only [List.nil_append]
          have := hl.perm
          simp only [List.nil_append] at this
          exact (this.cons m).trans (List.perm_append_singleton m (List.range m)).symm
        · exact hl.chain
        · intro j hj
          by_cases hjm : j = m
          · subst hjm; rw [List.getElem?_set_self hb2]
          · rw [List.getElem?_set_ne (by
              intro hh
              exact hjm (unit_inj (by omega) (by omega) hh).1.symm)]
            exact hl.idx j (by omega)
        · show b.allocated + 1 = _
          rw [hl.alloc]; rfl
      · intro hmem
        have := hl.lt_of_mem hmem
        omega
      · intro c _ hc
        rw [List.getElem?_set_ne (Ne.symm hc)]
      · intro j' hj' k hk
        unfold rd
        simp only [List.getElem?_set_self halt, hcell]
        rw [List.getElem?_set_ne]
        intro hh
        have := (unit_inj (by omega) (by omega) hh).2
        omega
    · cases hch : chain with
      | nil => exact absurd (by have := hl.chain; rw [hch] at this; exact this) hf
      | cons j rest =>
        have hc := hl.chain
        rw [hch] at hc
        obtain ⟨h1, nxt, h2, h3⟩ := hc
        have hnd := hl.nodup
        rw [hch] at hnd
        refine ⟨h, { b with firstFreeUnit := nxt, allocated := b.allocated + 1 }, ⟨a, j * (e + 1)⟩, j,
          ?_, ?_, hbl, rfl, ?_, rfl, Or.inl rfl, fun _ _ _ => rfl, fun _ _ _ _ => rfl⟩
        · unfold Block.alloc
          rw [if_neg hf, hbl]
          simp only
          unfold rd
          simp only [hcell, h1, h2, Option.join_some]
        · unfold BlockOK
          simp only [hbl]
          refine ⟨cells, rest, m, hcell, ?_⟩
          refine ⟨hl.len, hl.m_le, hl.end_, ?_, h3, hl.idx, ?_, by simp⟩
          · have := hl.perm
            rw [hch] at this
            exact (List.perm_middle).trans this
          · show b.allocated + 1 = _
            rw [hl.alloc]; rfl
        · intro hmem
          simp only [List.cons_append, List.nodup_cons, List.mem_append, not_or] at hnd
          exact hnd.1.2 hmem

/-- `Block::deallocate` of a live element. -/
theorem dealloc_ok {h : Heap} {e i a j : Nat} {b : Block} {lv : List Nat} (hb : BlockOK h e i b lv)
    (he : 0 < e) (hbl : b.block = some a) (hj : j ∈ lv) :
    rd h ⟨a, j * (e + 1) + e⟩ = some i ∧ 0 < b.allocated ∧
    ∃ h' b', b.dealloc h ⟨a, j * (e + 1)⟩ = some (h', b') ∧ BlockOK h' e i b' (lv.erase j) ∧
      b'.allocated = b.allocated - 1 ∧ (b'.block = some a ∨ b'.block = none) ∧
      (∀ c, c ≠ a → h'[c]? = h[c]?) ∧
      (∀ j' ∈ lv, j' ≠ j → b'.block = some a) ∧
      (∀ j' ∈ lv, j' ≠ j → ∀ k, k < e → rd h' ⟨a, j' * (e + 1) + k⟩ = rd h ⟨a, j' * (e + 1) + k⟩) := by
  unfold BlockOK at hb
  rw [hbl] at hb
  obtain ⟨cells, chain, m, hcell, hl⟩ := hb
  have hjm := hl.lt_of_mem hj
  have halt : a < h.length := lt_of_getElem?_some hcell
  have hb0 := hl.bound (k := 0) hjm (by omega)
  rw [Nat.add_zero] at hb0
  have hpos : 0 < lv.length := List.length_pos_of_mem hj
  have hal := hl.alloc
  have hnd := hl.nodup
  have hndlv : lv.Nodup := (List.nodup_append.1 hnd).2.1
  have hjc : j ∉ chain := fun hh => (List.nodup_append.1 hnd).2.2 j hh j hj rfl
  refine ⟨?_, by omega, ?_⟩
  · unfold rd
    simp only [hcell, hl.idx j hjm, Option.join_some]
  have hw : wrt h ⟨a, j * (e + 1)⟩ b.firstFreeUnit =
      some (h.set a (some (cells.set (j * (e + 1)) (some b.firstFreeUnit)))) := by
    unfold wrt; simp only [hcell]; rw [if_pos hb0]
  by_cases h1 : b.allocated - 1 = 0
  · have hlv : lv = [j] := by
      have : lv.length = 1 := by omega
      obtain ⟨y, rfl⟩ := List.length_eq_one_iff.1 this
      simp at hj; rw [hj]
    refine ⟨(h.set a (some (cells.set (j * (e + 1)) (some b.firstFreeUnit)))).set a none,
      { b with block := none, firstFreeUnit := npos, allocated := 0 }, ?_, ?_, ?_, Or.inr rfl, ?_, ?_, ?_⟩
    · unfold Block.dealloc
      rw [hw, hbl]
      simp only
      rw [if_neg (by simp; omega), if_pos h1]
    · unfold BlockOK; simp [hlv]
    · show 0 = _; omega
    · intro c hc
      rw [List.getElem?_set_ne (Ne.symm hc), List.getElem?_set_ne (Ne.symm hc)]
    · intro j' hj' hne; rw [hlv] at hj'; simp at hj'; exact absurd hj' hne
    · intro j' hj' hne; rw [hlv] at hj'; simp at hj'; exact absurd hj' hne
  · refine ⟨h.set a (some (cells.set (j * (e + 1)) (some b.firstFreeUnit))),
      { b with firstFreeUnit := j * (e + 1), allocated := b.allocated - 1 }, ?_, ?_, rfl, Or.inl hbl,
      ?_, fun _ _ _ => hbl, ?_⟩
    · unfold Block.dealloc
      rw [hw, hbl]
      simp only
      rw [if_neg (by simp; omega), if_neg h1]
    · unfold BlockOK
      simp only [hbl]
      refine ⟨_, j :: chain, m, List.getElem?_set_self halt, ?_⟩
      refine ⟨by simp [hl.len], hl.m_le, hl.end_, ?_, ?_, ?_, ?_, ?_⟩
      · have hp : (j :: chain ++ lv.erase j).Perm (chain ++ lv) := by
          rw [List.cons_append]
          exact (List.perm_middle.symm).trans ((List.perm_cons_erase hj).symm.append_left chain)
        exact hp.trans hl.perm
      · refine ⟨rfl, b.firstFreeUnit, List.getElem?_set_self hb0, ?_⟩
        apply hl.chain.congr
        intro j' hj'
        rw [List.getElem?_set_ne]
        intro hh
        have := (unit_inj (u := e + 1) (k := 0) (k' := 0) (by omega) (by omega) hh).1
        subst this
        exact hjc hj'
      · intro j' hj'
        rw [List.getElem?_set_ne]
        · exact hl.idx j' hj'
        · intro hh
          have := (unit_inj (u := e + 1) (k := 0) (k' := e) (by omega) (by omega) hh).2
          omega
      · show b.allocated - 1 = _
        rw [List.length_erase_of_mem hj, hal]
      · intro hnil
        have := List.length_erase_of_mem hj
        rw [hnil] at this
        simp at this; omega
    · intro c hc
      rw [List.getElem?_set_ne (Ne.symm hc)]
    · intro j' hj' hne k hk
      unfold rd
      simp only [List.getElem?_set_self halt, hcell]
      rw [List.getElem?_set_ne]
      intro hh
      exact hne (unit_inj (u := e + 1) (k := 0) (k' := k) (by omega) (by omega) hh).1.symm

/-- A write of the user into a live element. -/
theorem write_ok {h : Heap} {e i a j k v : Nat} {b : Block} {lv : List Nat} (hb : BlockOK h e i b lv)
    (hbl : b.block = some a) (hj : j ∈ lv) (hk : k < e) :
    ∃ h', wrt h ⟨a, j * (e + 1) + k⟩ v = some h' ∧ BlockOK h' e i b lv ∧
      (∀ c, c ≠ a → h'[c]? = h[c]?) := by
  unfold BlockOK at hb
  rw [hbl] at hb
  obtain ⟨cells, chain, m, hcell, hl⟩ := hb
  have hjm := hl.lt_of_mem hj
  have halt : a < h.length := lt_of_getElem?_some hcell
  have hb0 := hl.bound (k := k) hjm (by omega)
  have hjc : j ∉ chain := fun hh => (List.nodup_append.1 hl.nodup).2.2 j hh j hj rfl
  refine ⟨h.set a (some (cells.set (j * (e + 1) + k) (some v))), ?_, ?_, ?_⟩
  · unfold wrt; simp only [hcell]; rw [if_pos hb0]
  · unfold BlockOK
    simp only [hbl]
    refine ⟨_, chain, m, List.getElem?_set_self halt, ?_⟩
    refine ⟨by simp [hl.len], hl.m_le, hl.end_, hl.perm, ?_, ?_, hl.alloc, hl.ne⟩
    · apply hl.chain.congr
      intro j' hj'
      rw [List.getElem?_set_ne]
      intro hh
      have := (unit_inj (u := e + 1) (k := k) (k' := 0) (by omega) (by omega) hh).1
      subst this
      exact hjc hj'
    · intro j' hj'
      rw [List.getElem?_set_ne]
      · exact hl.idx j' hj'
      · intro hh
        have := (unit_inj (u := e + 1) (k := k) (k' := e) (by omega) (by omega) hh).2
        omega
  · intro c hc
    rw [List.getElem?_set_ne (Ne.symm hc)]

end QM.BlockAllocator
