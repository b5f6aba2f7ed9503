import Verif.BlockAllocator.Lemmas
import Verif.BlockAllocator.Spec

namespace QM.BlockAllocator

/-- Global invariant; `L[i]` are the live element numbers of block `i`. -/
structure Inv (s : State) (L : List (List Nat)) (live : List Ptr) : Prop where
  e_pos : 0 < s.e
  small : perBlock * (s.e + 1) < npos
  len : L.length = s.blocks.length
  ok : ∀ (i : Nat) (b : Block) (lv : List Nat), s.blocks[i]? = some b → L[i]? = some lv → BlockOK s.heap s.e i b lv
  dist : ∀ (i j : Nat) (b c : Block) (a : Nat), s.blocks[i]? = some b → s.blocks[j]? = some c → b.block = some a →
    c.block = some a → i = j
  fl_nodup : s.freelist.Nodup
  fl_mem : ∀ i, i ∈ s.freelist ↔ ∃ b : Block, s.blocks[i]? = some b ∧ b.allocated < perBlock
  full : ∀ (i : Nat) (b : Block), s.blocks[i]? = some b → b.allocated ≤ perBlock
  cap : s.capacity = 1024
  cap_le : s.blocks.length ≤ 1024
  nodup : live.Nodup
  live_iff : ∀ p : Ptr, p ∈ live ↔ ∃ (i : Nat) (b : Block) (lv : List Nat) (j : Nat), s.blocks[i]? = some b ∧ L[i]? = some lv ∧
    b.block = some p.base ∧ j ∈ lv ∧ p.off = j * (s.e + 1)
  count : live.length = (L.map List.length).sum

theorem BlockOK.allocated {h e i b lv} (hb : BlockOK h e i b lv) : b.allocated = lv.length := by
  unfold BlockOK at hb
  split at hb
  · obtain ⟨rfl, h, _⟩ := hb; simpa using h
  · obtain ⟨_, _, _, _, h⟩ := hb; exact h.alloc

theorem BlockOK.base_lt {h e i b lv a} (hb : BlockOK h e i b lv) (ha : b.block = some a) :
    a < h.length := by
  unfold BlockOK at hb
  rw [ha] at hb
  obtain ⟨_, _, _, h, _⟩ := hb
  exact lt_of_getElem?_some h

theorem Inv.init {sz : Nat} (h1 : 0 < sz) (h2 : sz < 2 ^ 32) : Inv (new sz) [] [] := by
  have he : 0 < elementSizeInDataUnits sz := by unfold elementSizeInDataUnits; omega
  refine ⟨he, ?_, rfl, by simp [new], by simp [new], by simp [new], by simp [new], by simp [new], rfl,
    by simp [new], by simp, by simp [new], by simp⟩
  show perBlock * (elementSizeInDataUnits sz + 1) < npos
  unfold perBlock npos elementSizeInDataUnits; omega

/-- Putting a new empty block in the free list, when there is still room in the vector. -/
theorem inv_ensureFree {s L live} (h : Inv s L live)
    (hroom : s.freelist = [] → s.blocks.length < 1024) :
    ∃ L', Inv (ensureFree s) L' live ∧ (ensureFree s).freelist ≠ [] ∧ (ensureFree s).heap = s.heap ∧
      (ensureFree s).e = s.e ∧
      (ensureFree s).blocks.length ≤ s.blocks.length + 1 := by
  unfold ensureFree
  by_cases hf : s.freelist = []
  · rw [if_pos hf]
    have hlt : s.blocks.length < s.capacity := by rw [h.cap]; exact hroom hf
    unfold pushBlock
    rw [if_pos hlt]
    have hget : ∀ i b, (s.blocks ++ [⟨none, npos, 0, 0⟩])[i]? = some b →
        s.blocks[i]? = some b ∨ (i = s.blocks.length ∧ b = ⟨none, npos, 0, 0⟩) := by
      intro i b hb
      by_cases hi : i < s.blocks.length
      · left; rwa [List.getElem?_append_left hi] at hb
      · right
        have hi2 := lt_of_getElem?_some hb
        simp at hi2
        have : i = s.blocks.length := by omega
        subst this
        simp at hb
        exact ⟨rfl, hb.symm⟩
    refine ⟨L ++ [[]], ⟨h.e_pos, h.small, by simp [h.len], ?_, ?_, by simp, ?_, ?_, h.cap, ?_, h.nodup, ?_, ?_⟩,
      by simp, rfl, rfl, by simp⟩
    · intro i b lv hb hl
      rcases hget i b hb with hb | ⟨rfl, rfl⟩
      · have hi := lt_of_getElem?_some hb
        rw [List.getElem?_append_left (by rw [h.len]; exact hi)] at hl
        exact h.ok i b lv hb hl
      · rw [← h.len] at hl
        simp at hl
        subst hl
        simp [BlockOK]
    · intro i j b c a hb hc hba hca
      rcases hget i b hb with hb | ⟨_, rfl⟩
      · rcases hget j c hc with hc | ⟨_, rfl⟩
        · exact h.dist i j b c a hb hc hba hca
        · cases hca
      · cases hba
    · intro i
      simp only [List.mem_singleton]
      constructor
      · rintro rfl
        exact ⟨⟨none, npos, 0, 0⟩, by simp, by simp [perBlock]⟩
      · rintro ⟨b, hb, hlt⟩
        rcases hget i b hb with hb | ⟨hi, _⟩
        · have : i ∈ s.freelist := (h.fl_mem i).2 ⟨b, hb, hlt⟩
          rw [hf] at this; cases this
        · exact hi
    · intro i b hb
      rcases hget i b hb with hb | ⟨_, rfl⟩
      · exact h.full i b hb
      · simp
    · have := hroom hf; simp; omega
    · intro p
      rw [h.live_iff p]
      constructor
      · rintro ⟨i, b, lv, j, h1, h2, h3, h4, h5⟩
        exact ⟨i, b, lv, j, by rw [List.getElem?_append_left (lt_of_getElem?_some h1)]; exact h1,
          by rw [List.getElem?_append_left (lt_of_getElem?_some h2)]; exact h2, h3, h4, h5⟩
      · rintro ⟨i, b, lv, j, h1, h2, h3, h4, h5⟩
        rcases hget i b h1 with hb | ⟨_, rfl⟩
        · refine ⟨i, b, lv, j, hb, ?_, h3, h4, h5⟩
          rwa [List.getElem?_append_left (by rw [h.len]; exact lt_of_getElem?_some hb)] at h2
        · cases h3
    · simp [h.count]
  · rw [if_neg hf]
    exact ⟨L, h, hf, rfl, rfl, by omega⟩

theorem sum_set (L : List (List Nat)) (i : Nat) (lv lv' : List Nat) (h : L[i]? = some lv) :
    ((L.set i lv').map List.length).sum + lv.length = (L.map List.length).sum + lv'.length := by
  induction L generalizing i with
  | nil => simp at h
  | cons x xs ih =>
    cases i with
    | zero => simp at h; subst h; simp; omega
    | succ i =>
      simp at h
      have := ih i h
      simp only [List.set_cons_succ, List.map_cons, List.sum_cons]; omega

theorem get_set_cases {α : Type} {xs : List α} {i j : Nat} {v w : α} (h : (xs.set i v)[j]? = some w) :
    (j = i ∧ w = v) ∨ (j ≠ i ∧ xs[j]? = some w) := by
  by_cases hij : j = i
  · left
    subst hij
    have := lt_of_getElem?_some h
    rw [List.getElem?_set_self (by simpa using this)] at h
    exact ⟨rfl, (Option.some.inj h).symm⟩
  · right
    rw [List.getElem?_set_ne (Ne.symm hij)] at h
    exact ⟨hij, h⟩

/-- `allocate` keeps the invariant. -/
theorem inv_allocate {s L live} (h : Inv s L live)
    (hroom : s.freelist = [] → s.blocks.length < 1024) :
    ∃ s' p L', allocate s = some (s', p) ∧ Inv s' L' (p :: live) ∧ s'.e = s.e ∧
      (∀ q ∈ live, content s' q = content s q) := by
  obtain ⟨L1, h1, hne, hheap, he, -⟩ := inv_ensureFree h hroom
  unfold allocate
  simp only
  generalize hs1 : ensureFree s = s1 at *
  cases hfl : s1.freelist with
  | nil => exact absurd hfl hne
  | cons index rest =>
    have hmem : index ∈ s1.freelist := by rw [hfl]; simp
    obtain ⟨b, hb, hlt⟩ := (h1.fl_mem index).1 hmem
    have hidx := lt_of_getElem?_some hb
    obtain ⟨lv, hlv⟩ : ∃ lv, L1[index]? = some lv :=
      ⟨_, List.getElem?_eq_getElem (by rw [h1.len]; exact hidx)⟩
    have hok := h1.ok index b lv hb hlv
    obtain ⟨h', b', p, j, r, hok', hbase, hoff, hjn, hal, hor, hframe, hcont⟩ :=
      alloc_ok hok hlt h1.small
    simp only [hb, r]
    -- other blocks do not live in the array of `p`
    have hother : ∀ i c a, i ≠ index → s1.blocks[i]? = some c → c.block = some a →
        a ≠ p.base ∧ a < s1.heap.length := by
      intro i c a hi hc ha
      obtain ⟨lc, hlc⟩ : ∃ lc, L1[i]? = some lc :=
        ⟨_, List.getElem?_eq_getElem (by rw [h1.len]; exact lt_of_getElem?_some hc)⟩
      have halt := (h1.ok i c lc hc hlc).base_lt ha
      refine ⟨?_, halt⟩
      rintro rfl
      rcases hor with hor | ⟨_, hor⟩
      · exact hi (h1.dist i index c b _ hc hb ha hor)
      · omega
    have hpl : p ∉ live := by
      intro hp
      obtain ⟨i, c, lc, j', g1, g2, g3, g4, g5⟩ := (h1.live_iff p).1 hp
      by_cases hi : i = index
      · subst hi
        rw [g1] at hb; cases hb
        rw [g2] at hlv; cases hlv
        rw [hoff] at g5
        have := (unit_inj (u := s1.e + 1) (k := 0) (k' := 0) (by omega) (by omega)
          (by simpa using g5)).1
        exact hjn (this ▸ g4)
      · exact (hother i c p.base hi g1 g3).1 rfl
    have hcnt : ∀ q ∈ live, content { s1 with heap := h' } q = content s1 q := by
      intro q hq
      obtain ⟨i, c, lc, j', g1, g2, g3, g4, g5⟩ := (h1.live_iff q).1 hq
      unfold content
      apply List.map_congr_left
      intro k hk
      rw [List.mem_range] at hk
      by_cases hi : i = index
      · subst hi
        rw [g1] at hb; cases hb
        rw [g2] at hlv; cases hlv
        have hqp : q.base = p.base := by
          rcases hor with hor | ⟨hor, _⟩
          · rw [g3] at hor; exact Option.some.inj hor
          · rw [g3] at hor; cases hor
        rw [hqp, g5]
        exact hcont j' g4 k hk
      · obtain ⟨a1, a2⟩ := hother i c q.base hi g1 g3
        unfold rd
        simp only [hframe q.base a2 a1]
    have hcontent : ∀ q ∈ live, content { s1 with
        heap := h', blocks := s1.blocks.set index b',
        freelist := if b'.isFull then rest else index :: rest } q = content s q := by
      intro q hq
      have := hcnt q hq
      unfold content at this ⊢
      rw [hheap, he] at this
      simp only [he] at this ⊢
      exact this
    refine ⟨_, p, L1.set index (j :: lv), rfl, ?_, he, hcontent⟩
    refine ⟨h1.e_pos, h1.small, by simp [h1.len], ?_, ?_, ?_, ?_, ?_, h1.cap, by simpa using h1.cap_le,
      ?_, ?_, ?_⟩
    · intro i c lc hc hlc
      rcases get_set_cases hc with ⟨rfl, rfl⟩ | ⟨hi, hc⟩
      · rcases get_set_cases hlc with ⟨_, rfl⟩ | ⟨hi, _⟩
        · exact hok'
        · exact absurd rfl hi
      · rcases get_set_cases hlc with ⟨hi', _⟩ | ⟨_, hlc⟩
        · exact absurd hi' hi
        · apply (h1.ok i c lc hc hlc).frame
          intro a ha
          obtain ⟨a1, a2⟩ := hother i c a hi hc ha
          exact hframe a a2 a1
    · intro i i' c c' a hc hc' ha ha'
      rcases get_set_cases hc with ⟨rfl, rfl⟩ | ⟨hi, hc2⟩
      · rcases get_set_cases hc' with ⟨rfl, rfl⟩ | ⟨hi', hc2'⟩
        · rfl
        · exfalso
          rw [hbase] at ha
          exact (hother i' c' a hi' hc2' ha').1 (Option.some.inj ha).symm
      · rcases get_set_cases hc' with ⟨rfl, rfl⟩ | ⟨hi', hc2'⟩
        · exfalso
          rw [hbase] at ha'
          exact (hother i c a hi hc2 ha).1 (Option.some.inj ha').symm
        · exact h1.dist i i' c c' a hc2 hc2' ha ha'
    · have := h1.fl_nodup
      rw [hfl] at this
      show (if b'.isFull then rest else index :: rest).Nodup
      split_ifs
      · exact (List.nodup_cons.1 this).2
      · exact this
    · intro i
      have hnd := h1.fl_nodup
      rw [hfl] at hnd
      have hold := h1.fl_mem i
      rw [hfl] at hold
      show i ∈ (if b'.isFull then rest else index :: rest) ↔ _
      by_cases hi : i = index
      · subst hi
        have hset : (s1.blocks.set i b')[i]? = some b' := List.getElem?_set_self hidx
        simp only [hset]
        have hb'lt : b'.allocated ≤ perBlock := by omega
        have hfd : b'.isFull ↔ b'.allocated = perBlock := Iff.rfl
        split_ifs with hfull <;> rw [hfd] at hfull
        · constructor
          · intro hm; exact absurd hm (List.nodup_cons.1 hnd).1
          · rintro ⟨c, hc, hl⟩; cases hc; omega
        · constructor
          · intro _; exact ⟨b', rfl, by omega⟩
          · intro _; simp
      · have hset : (s1.blocks.set index b')[i]? = s1.blocks[i]? := List.getElem?_set_ne (Ne.symm hi)
        simp only [hset]
        rw [← hold]
        split_ifs
        · simp [hi]
        · rfl
    · intro i c hc
      rcases get_set_cases hc with ⟨rfl, rfl⟩ | ⟨hi, hc⟩
      · omega
      · exact h1.full i c hc
    · exact List.nodup_cons.2 ⟨hpl, h.nodup⟩
    · intro q
      rw [List.mem_cons, h1.live_iff q]
      constructor
      · rintro (rfl | ⟨i, c, lc, j', g1, g2, g3, g4, g5⟩)
        · exact ⟨index, b', j :: lv, j, List.getElem?_set_self hidx,
            List.getElem?_set_self (by rw [h1.len]; exact hidx), hbase, by simp, hoff⟩
        · by_cases hi : i = index
          · subst hi
            rw [hb] at g1; cases g1
            rw [hlv] at g2; cases g2
            refine ⟨i, b', j :: lv, j', List.getElem?_set_self hidx,
              List.getElem?_set_self (by rw [h1.len]; exact hidx), ?_, by simp [g4], g5⟩
            rcases hor with hor | ⟨hor, _⟩
            · rw [hbase, ← g3, hor]
            · rw [g3] at hor; cases hor
          · exact ⟨i, c, lc, j', by simp only [List.getElem?_set_ne (Ne.symm hi)]; exact g1,
              by rw [List.getElem?_set_ne (Ne.symm hi)]; exact g2, g3, g4, g5⟩
      · rintro ⟨i, c, lc, j', g1, g2, g3, g4, g5⟩
        rcases get_set_cases g1 with ⟨rfl, rfl⟩ | ⟨hi, g1⟩
        · rcases get_set_cases g2 with ⟨_, rfl⟩ | ⟨hi, _⟩
          · rw [hbase] at g3
            rcases List.mem_cons.1 g4 with rfl | g4
            · left
              cases q; cases p
              simp only [Ptr.mk.injEq] at *
              exact ⟨(Option.some.inj g3).symm, by rw [g5, hoff]⟩
            · right
              refine ⟨i, b, lv, j', hb, hlv, ?_, g4, g5⟩
              rcases hor with hor | ⟨hor, _⟩
              · rw [hor, g3]
              · exfalso
                unfold BlockOK at hok
                rw [hor] at hok
                rw [hok.1] at g4; cases g4
          · exact absurd rfl hi
        · rcases get_set_cases g2 with ⟨hi', _⟩ | ⟨_, g2⟩
          · exact absurd hi' hi
          · right; exact ⟨i, c, lc, j', g1, g2, g3, g4, g5⟩
    · have := sum_set L1 index lv (j :: lv) hlv
      have := h1.count
      simp only [List.length_cons] at *
      omega

/-- `deallocate` of a live pointer keeps the invariant. -/
theorem inv_deallocate {s L live} (h : Inv s L live) {p : Ptr} (hp : p ∈ live) :
    ∃ s' L', deallocate s p = some s' ∧ Inv s' L' (live.erase p) ∧ s'.e = s.e ∧
      (∀ q ∈ live, q ≠ p → content s' q = content s q) := by
  obtain ⟨i, b, lv, j, hb, hlv, hbl, hj, hoff⟩ := (h.live_iff p).1 hp
  have hok := h.ok i b lv hb hlv
  have hidx := lt_of_getElem?_some hb
  obtain ⟨hrd, hpos, h', b', r, hok', hal, hblk', hframe, hblk'', hcont⟩ := dealloc_ok hok h.e_pos hbl hj
  obtain ⟨pb, po⟩ := p
  simp only at hbl hoff
  subst hoff
  unfold deallocate
  simp only [hrd, hb, r]
  have hother : ∀ i' c a, i' ≠ i → s.blocks[i']? = some c → c.block = some a → a ≠ pb := by
    intro i' c a hi hc ha
    rintro rfl
    exact hi (h.dist i' i c b _ hc hb ha hbl)
  have hlvnd : lv.Nodup := by
    unfold BlockOK at hok
    rw [hbl] at hok
    obtain ⟨_, _, _, _, hl⟩ := hok
    exact (List.nodup_append.1 hl.nodup).2.1
  refine ⟨_, L.set i (lv.erase j), rfl, ?_, rfl, ?_⟩
  · refine ⟨h.e_pos, h.small, by simp [h.len], ?_, ?_, ?_, ?_, ?_, h.cap, by simpa using h.cap_le,
      h.nodup.erase _, ?_, ?_⟩
    · intro i' c lc hc hlc
      rcases get_set_cases hc with ⟨rfl, rfl⟩ | ⟨hi, hc⟩
      · rcases get_set_cases hlc with ⟨_, rfl⟩ | ⟨hi, _⟩
        · exact hok'
        · exact absurd rfl hi
      · rcases get_set_cases hlc with ⟨hi', _⟩ | ⟨_, hlc⟩
        · exact absurd hi' hi
        · apply (h.ok i' c lc hc hlc).frame
          intro a ha
          exact hframe a (hother i' c a hi hc ha)
    · intro i1 i2 c c' a hc hc' ha ha'
      have hb'a : ∀ a, b'.block = some a → a = pb := by
        intro a ha
        rcases hblk' with hh | hh
        · rw [hh] at ha; exact (Option.some.inj ha).symm
        · rw [hh] at ha; cases ha
      rcases get_set_cases hc with ⟨rfl, rfl⟩ | ⟨hi, hc2⟩
      · rcases get_set_cases hc' with ⟨rfl, rfl⟩ | ⟨hi', hc2'⟩
        · rfl
        · exact absurd (hb'a a ha) (hother i2 c' a hi' hc2' ha')
      · rcases get_set_cases hc' with ⟨rfl, rfl⟩ | ⟨hi', hc2'⟩
        · exact absurd (hb'a a ha') (hother i1 c a hi hc2 ha)
        · exact h.dist i1 i2 c c' a hc2 hc2' ha ha'
    · show (if b.isFull then i :: s.freelist else s.freelist).Nodup
      split_ifs with hf
      · have hf2 : b.allocated = perBlock := hf
        refine List.nodup_cons.2 ⟨?_, h.fl_nodup⟩
        intro hm
        obtain ⟨c, hc, hlt⟩ := (h.fl_mem i).1 hm
        rw [hb] at hc; cases hc; omega
      · exact h.fl_nodup
    · intro i'
      show i' ∈ (if b.isFull then i :: s.freelist else s.freelist) ↔ _
      have hfd : b.isFull ↔ b.allocated = perBlock := Iff.rfl
      have hfull := h.full i b hb
      by_cases hi : i' = i
      · subst hi
        have hset : (s.blocks.set i' b')[i']? = some b' := List.getElem?_set_self hidx
        simp only [hset]
        constructor
        · intro _; exact ⟨b', rfl, by omega⟩
        · intro _
          split_ifs with hf
          · simp
          · rw [hfd] at hf; exact (h.fl_mem i').2 ⟨b, hb, by omega⟩
      · have hset : (s.blocks.set i b')[i']? = s.blocks[i']? := List.getElem?_set_ne (Ne.symm hi)
        simp only [hset]
        rw [← h.fl_mem i']
        split_ifs
        · simp [hi]
        · rfl
    · intro i' c hc
      rcases get_set_cases hc with ⟨rfl, rfl⟩ | ⟨hi, hc⟩
      · have := h.full _ b hb; omega
      · exact h.full i' c hc
    · intro q
      rw [List.Nodup.mem_erase_iff h.nodup, h.live_iff q]
      constructor
      · rintro ⟨hne, i', c, lc, j', g1, g2, g3, g4, g5⟩
        by_cases hi : i' = i
        · subst hi
          rw [hb] at g1; cases g1
          rw [hlv] at g2; cases g2
          have hqb : q.base = pb := by rw [g3] at hbl; exact Option.some.inj hbl
          have hjj : j' ≠ j := by
            rintro rfl
            apply hne
            cases q
            simp only [Ptr.mk.injEq] at *
            exact ⟨hqb, g5⟩
          exact ⟨i', b', lv.erase j, j', List.getElem?_set_self hidx,
            List.getElem?_set_self (by rw [h.len]; exact hidx),
            by rw [hqb]; exact hblk'' j' g4 hjj, (List.Nodup.mem_erase_iff hlvnd).2 ⟨hjj, g4⟩, g5⟩
        · exact ⟨i', c, lc, j', by simp only [List.getElem?_set_ne (Ne.symm hi)]; exact g1,
            by rw [List.getElem?_set_ne (Ne.symm hi)]; exact g2, g3, g4, g5⟩
      · rintro ⟨i', c, lc, j', g1, g2, g3, g4, g5⟩
        rcases get_set_cases g1 with ⟨rfl, rfl⟩ | ⟨hi, g1⟩
        · rcases get_set_cases g2 with ⟨_, rfl⟩ | ⟨hi, _⟩
          · rw [List.Nodup.mem_erase_iff hlvnd] at g4
            have hqb : q.base = pb := by
              rcases hblk' with hh | hh
              · rw [hh] at g3; exact (Option.some.inj g3).symm
              · rw [hh] at g3; cases g3
            refine ⟨?_, i', b, lv, j', hb, hlv, by rw [hqb]; exact hbl, g4.2, g5⟩
            rintro rfl
            simp only at g5
            exact g4.1 ((unit_inj (u := s.e + 1) (k := 0) (k' := 0) (by omega) (by omega)
              (by simpa using g5)).1.symm)
          · exact absurd rfl hi
        · rcases get_set_cases g2 with ⟨hi', _⟩ | ⟨_, g2⟩
          · exact absurd hi' hi
          · refine ⟨?_, i', c, lc, j', g1, g2, g3, g4, g5⟩
            rintro rfl
            exact hother i' c pb hi g1 g3 rfl
    · have h1 := sum_set L i lv (lv.erase j) hlv
      have h2 := h.count
      have h3 := List.length_erase_of_mem hj
      have h4 := List.length_erase_of_mem hp
      have h5 := List.length_pos_of_mem hj
      have h6 := List.length_pos_of_mem hp
      omega
  · intro q hq hne
    obtain ⟨i', c, lc, j', g1, g2, g3, g4, g5⟩ := (h.live_iff q).1 hq
    unfold content
    apply List.map_congr_left
    intro k hk
    rw [List.mem_range] at hk
    by_cases hi : i' = i
    · subst hi
      rw [g1] at hb; cases hb
      rw [g2] at hlv; cases hlv
      have hqb : q.base = pb := by rw [g3] at hbl; exact Option.some.inj hbl
      rw [hqb, g5]
      apply hcont j' g4 _ k hk
      rintro rfl
      apply hne
      cases q
      simp only [Ptr.mk.injEq] at *
      exact ⟨hqb, g5⟩
    · unfold rd
      simp only [hframe q.base (hother i' c q.base hi g1 g3)]

/-- A user write into a live element keeps the invariant. -/
theorem inv_write {s L live} (h : Inv s L live) {p : Ptr} (hp : p ∈ live) {k : Nat} (hk : k < s.e) (v : Nat) :
    ∃ hp', wrt s.heap ⟨p.base, p.off + k⟩ v = some hp' ∧ Inv { s with heap := hp' } L live := by
  obtain ⟨i, b, lv, j, hb, hlv, hbl, hj, hoff⟩ := (h.live_iff p).1 hp
  obtain ⟨h', r, hok', hframe⟩ := write_ok (v := v) (h.ok i b lv hb hlv) hbl hj hk
  refine ⟨h', by rw [hoff]; exact r, ⟨h.e_pos, h.small, h.len, ?_, h.dist, h.fl_nodup, h.fl_mem, h.full,
    h.cap, h.cap_le, h.nodup, h.live_iff, h.count⟩⟩
  intro i' c lc hc hlc
  by_cases hi : i' = i
  · subst hi
    simp only at hc
    rw [hb] at hc; cases hc
    rw [hlv] at hlc; cases hlc
    exact hok'
  · apply (h.ok i' c lc hc hlc).frame
    intro a ha
    apply hframe
    rintro rfl
    exact hi (h.dist i' i c b _ hc hb ha hbl)

end QM.BlockAllocator
