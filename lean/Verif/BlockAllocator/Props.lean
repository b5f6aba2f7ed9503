import Verif.BlockAllocator.Inv

namespace QM.BlockAllocator

theorem ensureFree_length (s : State) :
    (ensureFree s).blocks.length = s.blocks.length + if s.freelist = [] then 1 else 0 := by
  unfold ensureFree pushBlock
  split_ifs <;> simp

theorem allocate_length {s s' : State} {p : Ptr} (h : allocate s = some (s', p)) :
    s'.blocks.length = s.blocks.length + if s.freelist = [] then 1 else 0 := by
  have hl := ensureFree_length s
  unfold allocate at h
  simp only at h
  split at h
  · cases h
  · split at h
    · cases h
    · split at h
      · cases h
      · simp only [Option.some.injEq, Prod.mk.injEq] at h
        rw [← h.1]
        simpa using hl

theorem deallocate_length {s s' : State} {p : Ptr} (h : deallocate s p = some s') :
    s'.blocks.length = s.blocks.length := by
  unfold deallocate at h
  simp only at h
  split at h
  · cases h
  · split at h
    · cases h
    · split at h
      · cases h
      · simp only [Option.some.injEq] at h
        rw [← h]; simp

/-- Every reachable state with at most 1024 blocks satisfies the invariant. -/
theorem reach_inv {sz : Nat} (h1 : 0 < sz) (h2 : sz < 2 ^ 32) {s : State} {live : List Ptr}
    (h : Reach sz s live) (hcap : s.blocks.length ≤ 1024) : ∃ L, Inv s L live := by
  induction h with
  | init => exact ⟨[], Inv.init h1 h2⟩
  | alloc hr e ih =>
    have hl := allocate_length e
    obtain ⟨L, hi⟩ := ih (by omega)
    obtain ⟨s', p, L', e', hi', _⟩ := inv_allocate hi (by
      intro hf; rw [if_pos hf] at hl; omega)
    rw [e] at e'; cases e'
    exact ⟨L', hi'⟩
  | free hr hp e ih =>
    have hl := deallocate_length e
    obtain ⟨L, hi⟩ := ih (by omega)
    obtain ⟨s', L', e', hi', _⟩ := inv_deallocate hi hp
    rw [e] at e'; cases e'
    exact ⟨L', hi'⟩
  | write hr hp hk e ih =>
    obtain ⟨L, hi⟩ := ih hcap
    obtain ⟨h', e', hi'⟩ := inv_write hi hp hk _
    rw [e] at e'; cases e'
    exact ⟨L, hi'⟩

/-- A live pointer is the start of an element lying in an array of the allocator. -/
theorem Inv.owned {s : State} {L live} (h : Inv s L live) {p : Ptr} (hp : p ∈ live) : Owned s p := by
  obtain ⟨i, b, lv, j, hb, hlv, hbl, hj, hoff⟩ := (h.live_iff p).1 hp
  have hok := h.ok i b lv hb hlv
  unfold BlockOK at hok
  rw [hbl] at hok
  obtain ⟨cells, chain, m, hc, hl⟩ := hok
  have := hl.bound (k := s.e) (hl.lt_of_mem hj) (le_refl _)
  exact ⟨cells, hc, by omega⟩

theorem Inv.disjoint {s : State} {L live} (h : Inv s L live) {p q : Ptr} (hp : p ∈ live) (hq : q ∈ live)
    (hne : p ≠ q) : Disjoint s.e p q := by
  obtain ⟨i, b, lv, j, hb, hlv, hbl, hj, hoff⟩ := (h.live_iff p).1 hp
  obtain ⟨i', b', lv', j', hb', hlv', hbl', hj', hoff'⟩ := (h.live_iff q).1 hq
  unfold Disjoint
  by_cases hbase : p.base = q.base
  · right
    have hjj : j ≠ j' := by
      rintro rfl
      apply hne
      cases p; cases q
      simp only [Ptr.mk.injEq] at *
      exact ⟨hbase, by omega⟩
    rw [hoff, hoff']
    rcases Nat.lt_or_gt_of_ne hjj with hlt | hlt
    · left
      have := Nat.mul_le_mul_right (s.e + 1) hlt
      rw [Nat.succ_mul] at this; omega
    · right
      have := Nat.mul_le_mul_right (s.e + 1) hlt
      rw [Nat.succ_mul] at this; omega
  · left; exact hbase

/-! ## C18 -/

/-- C18 (as long as no more than 1024 blocks, that is 524288 elements at once, have been needed; see
`C18_violation`). In every reachable state: any two live elements are disjoint, no pointer is handed out
twice, and every live element lies inside memory the allocator owns. -/
theorem C18_live_disjoint_partial {sz : Nat} (h1 : 0 < sz) (h2 : sz < 2 ^ 32) {s : State} {live : List Ptr}
    (h : Reach sz s live) (hcap : s.blocks.length ≤ 1024) :
    live.Nodup ∧ live.Pairwise (Disjoint s.e) ∧ ∀ p ∈ live, Owned s p := by
  obtain ⟨L, hi⟩ := reach_inv h1 h2 h hcap
  refine ⟨hi.nodup, ?_, fun p hp => hi.owned hp⟩
  exact hi.nodup.imp_of_mem (fun hp hq hne => hi.disjoint hp hq hne)

/-- C18. `allocate` succeeds without touching memory it should not: the new element is disjoint from all
live ones, and what the program stored in live elements is not changed. The guard says that the vector of
blocks does not have to grow beyond 1024. -/
theorem C18_allocate_partial {sz : Nat} (h1 : 0 < sz) (h2 : sz < 2 ^ 32) {s : State} {live : List Ptr}
    (h : Reach sz s live) (hcap : s.blocks.length < 1024) :
    ∃ s' p, allocate s = some (s', p) ∧ p ∉ live ∧ Owned s' p ∧
      (∀ q ∈ live, Disjoint s.e p q ∧ Owned s' q ∧ content s' q = content s q) := by
  obtain ⟨L, hi⟩ := reach_inv h1 h2 h (by omega)
  obtain ⟨s', p, L', e, hi', he, hc⟩ := inv_allocate hi (fun _ => hcap)
  have hnd := List.nodup_cons.1 hi'.nodup
  refine ⟨s', p, e, hnd.1, hi'.owned (by simp), fun q hq => ⟨?_, hi'.owned (by simp [hq]), hc q hq⟩⟩
  rw [← he]
  exact hi'.disjoint (by simp) (by simp [hq]) (by rintro rfl; exact hnd.1 hq)

/-- C18. `deallocate` of a live pointer succeeds and changes nothing in the other live elements. -/
theorem C18_deallocate_partial {sz : Nat} (h1 : 0 < sz) (h2 : sz < 2 ^ 32) {s : State} {live : List Ptr}
    (h : Reach sz s live) (hcap : s.blocks.length ≤ 1024) {p : Ptr} (hp : p ∈ live) :
    ∃ s', deallocate s p = some s' ∧
      (∀ q ∈ live, q ≠ p → Owned s' q ∧ content s' q = content s q) := by
  obtain ⟨L, hi⟩ := reach_inv h1 h2 h hcap
  obtain ⟨s', L', e, hi', he, hc⟩ := inv_deallocate hi hp
  exact ⟨s', e, fun q hq hne => ⟨hi'.owned ((List.Nodup.mem_erase_iff hi.nodup).2 ⟨hne, hq⟩), hc q hq hne⟩⟩

/-- C18. A live element can be written anywhere. -/
theorem C18_write_partial {sz : Nat} (h1 : 0 < sz) (h2 : sz < 2 ^ 32) {s : State} {live : List Ptr}
    (h : Reach sz s live) (hcap : s.blocks.length ≤ 1024) {p : Ptr} (hp : p ∈ live) (k v : Nat) (hk : k < s.e) :
    ∃ h', wrt s.heap ⟨p.base, p.off + k⟩ v = some h' := by
  obtain ⟨L, hi⟩ := reach_inv h1 h2 h hcap
  obtain ⟨h', e', _⟩ := inv_write hi hp hk v
  exact ⟨h', e'⟩

set_option maxRecDepth 100000 in
example : ∃ s p q, Reach 24 s [q, p] ∧ s.blocks.length ≤ 1024 ∧ p ≠ q ∧ s.e = 3 := by
  refine ⟨_, ⟨0, 0⟩, ⟨0, 4⟩, Reach.alloc (Reach.alloc Reach.init rfl) rfl, by decide, by decide, rfl⟩

/-! ### Growing beyond 1024 blocks -/

theorem sum_le_of_all (L : List (List Nat)) (c : Nat) (h : ∀ lv ∈ L, lv.length = c) :
    (L.map List.length).sum = L.length * c := by
  induction L with
  | nil => simp
  | cons x xs ih =>
    simp only [List.map_cons, List.sum_cons, List.length_cons]
    rw [ih (fun lv hl => h lv (by simp [hl])), h x (by simp), Nat.add_mul]; omega

theorem Inv.full_count {s : State} {L live} (h : Inv s L live) (hf : s.freelist = []) :
    live.length = s.blocks.length * perBlock := by
  rw [h.count, ← h.len]
  apply sum_le_of_all
  intro lv hlv
  obtain ⟨i, hi, hget⟩ := List.getElem_of_mem hlv
  have hib : i < s.blocks.length := by rw [← h.len]; exact hi
  have hb : s.blocks[i]? = some s.blocks[i] := List.getElem?_eq_getElem hib
  have hl : L[i]? = some lv := by rw [List.getElem?_eq_getElem hi, hget]
  have ha := (h.ok i _ lv hb hl).allocated
  have hfull := h.full i _ hb
  by_contra hne
  have : i ∈ s.freelist := (h.fl_mem i).2 ⟨_, hb, by omega⟩
  rw [hf] at this; cases this

/-- A program that only allocates can reach 524288 live elements in a good state. -/
theorem fill {sz : Nat} (h1 : 0 < sz) (h2 : sz < 2 ^ 32) (n : Nat) (hn : n ≤ 1024 * perBlock) :
    ∃ s L live, Reach sz s live ∧ Inv s L live ∧ live.length = n := by
  induction n with
  | zero => exact ⟨new sz, [], [], Reach.init, Inv.init h1 h2, rfl⟩
  | succ n ih =>
    obtain ⟨s, L, live, hr, hi, hl⟩ := ih (by omega)
    obtain ⟨s', p, L', e, hi', _⟩ := inv_allocate hi (by
      intro hf
      have := hi.full_count hf
      unfold perBlock at *
      omega)
    exact ⟨s', L', p :: live, Reach.alloc hr e, hi', by simp [hl]⟩

theorem deleteAll_none (bs : List Block) : ∀ (h : Heap) (a : Nat),
    (∃ b ∈ bs, b.block = some a) ∨ h[a]? = some none → a < h.length →
    (deleteAll h bs)[a]? = some none := by
  induction bs with
  | nil => intro h a ha _; simpa [deleteAll] using ha
  | cons b bs ih =>
    intro h a ha hlt
    unfold deleteAll
    rw [List.foldl_cons]
    cases hb : b.block with
    | none =>
      apply ih h a _ hlt
      rcases ha with ⟨c, hc, hca⟩ | ha
      · rcases List.mem_cons.1 hc with rfl | hc
        · rw [hb] at hca; cases hca
        · exact Or.inl ⟨c, hc, hca⟩
      · exact Or.inr ha
    | some a' =>
      apply ih (List.set h a' none) a _ (by simpa using hlt)
      by_cases haa : a' = a
      · subst haa; right; exact List.getElem?_set_self hlt
      · rcases ha with ⟨c, hc, hca⟩ | ha
        · rcases List.mem_cons.1 hc with rfl | hc
          · rw [hb] at hca; exact absurd (Option.some.inj hca) haa
          · exact Or.inl ⟨c, hc, hca⟩
        · right; rw [List.getElem?_set_ne haa]; exact ha

theorem alloc_new {h : Heap} {e i : Nat} :
    ∃ h' b' p, Block.alloc e h ⟨none, npos, 0, 0⟩ i = some (h', b', p) ∧ ∀ c, c < h.length → h'[c]? = h[c]? := by
  have hwr : wrt (h ++ [some (List.replicate (perBlock * (e + 1)) none)]) ⟨h.length, 0 + e⟩ i =
      some (h ++ [some ((List.replicate (perBlock * (e + 1)) none).set e (some i))]) := by
    unfold wrt
    simp only [List.getElem?_append_right (le_refl _), Nat.sub_self, List.getElem?_cons_zero,
      List.length_replicate, Nat.zero_add]
    rw [if_pos (by unfold perBlock; omega)]
    simp
  refine ⟨h ++ [some ((List.replicate (perBlock * (e + 1)) none).set e (some i))],
    ⟨some h.length, npos, 1, e + 1⟩, ⟨h.length, 0⟩, ?_, ?_⟩
  · unfold Block.alloc ensure
    rw [if_pos rfl]
    rw [Nat.zero_add] at hwr
    simp only [hwr, Nat.zero_add]
  · intro c hc
    rw [List.getElem?_append_left hc]

/-- The full C18 is false of the code, for every element size: the allocation of element 524289 reallocates
the vector of blocks, whose elements are copied member by member and then destroyed, so every live element
is left pointing into deleted memory. -/
theorem C18_violation {sz : Nat} (h1 : 0 < sz) (h2 : sz < 2 ^ 32) :
    ∃ s live s' p, Reach sz s live ∧ live.length = 524288 ∧ allocate s = some (s', p) ∧
      Reach sz s' (p :: live) ∧ ∀ q ∈ live, ¬ Owned s' q := by
  obtain ⟨s, L, live, hr, hi, hl⟩ := fill h1 h2 (1024 * perBlock) (le_refl _)
  have hfl : s.freelist = [] := by
    by_contra hne
    -- some block is not full, so there are fewer than 1024 * 512 elements
    obtain ⟨i, rest, hir⟩ := List.exists_cons_of_ne_nil hne
    obtain ⟨b, hb, hlt⟩ := (hi.fl_mem i).1 (by rw [hir]; simp)
    have hib : i < L.length := by rw [hi.len]; exact lt_of_getElem?_some hb
    have hall : ∀ lv ∈ L, lv.length ≤ perBlock := by
      intro lv hlv
      obtain ⟨k, hk, hget⟩ := List.getElem_of_mem hlv
      have hkb : k < s.blocks.length := by rw [← hi.len]; exact hk
      have hb := List.getElem?_eq_getElem hkb
      have ha := (hi.ok k _ lv hb (by rw [List.getElem?_eq_getElem hk, hget])).allocated
      have := hi.full k _ hb
      omega
    have hthis : L[i].length < perBlock := by
      have ha := (hi.ok i b L[i] hb (List.getElem?_eq_getElem hib)).allocated
      omega
    have hsum : ∀ (L : List (List Nat)) (i : Nat) (hib : i < L.length), (∀ lv ∈ L, lv.length ≤ perBlock) →
        L[i].length < perBlock → (L.map List.length).sum < L.length * perBlock := by
      intro L
      induction L with
      | nil => intro i hib; simp at hib
      | cons x xs ih =>
        have hle : ∀ xs : List (List Nat), (∀ lv ∈ xs, lv.length ≤ perBlock) →
            (xs.map List.length).sum ≤ xs.length * perBlock := by
          intro xs
          induction xs with
          | nil => simp
          | cons y ys ih2 =>
            intro hy
            have := ih2 (fun lv hlv => hy lv (by simp [hlv]))
            have := hy y (by simp)
            simp only [List.map_cons, List.sum_cons, List.length_cons, Nat.add_mul]; omega
        intro i hib hall hthis
        simp only [List.map_cons, List.sum_cons, List.length_cons, Nat.add_mul]
        have hx := hall x (by simp)
        cases i with
        | zero =>
          have := hle xs (fun lv hlv => hall lv (by simp [hlv]))
          simp at hthis
          omega
        | succ i =>
          have := ih i (by simpa using hib) (fun lv hlv => hall lv (by simp [hlv])) (by simpa using hthis)
          omega
    have h3 := hsum L i hib hall hthis
    rw [← hi.count, hl, hi.len] at h3
    have := hi.cap_le
    have := Nat.mul_le_mul_right perBlock this
    omega
  have hlen : s.blocks.length = 1024 := by
    have h3 := hi.full_count hfl
    rw [hl] at h3
    unfold perBlock at h3; omega
  -- the reallocation
  have hens : ensureFree s = ⟨s.e, s.blocks ++ [⟨none, npos, 0, 0⟩], 2 * s.capacity, [s.blocks.length],
      deleteAll s.heap s.blocks⟩ := by
    unfold ensureFree pushBlock
    rw [if_pos hfl, if_neg (by rw [hi.cap, hlen]; omega)]
  obtain ⟨h', b', p, ea, hfr⟩ := alloc_new (h := deleteAll s.heap s.blocks) (e := s.e) (i := s.blocks.length)
  have hal : allocate s = some (⟨s.e, (s.blocks ++ [(⟨none, npos, 0, 0⟩ : Block)]).set s.blocks.length b',
      2 * s.capacity, if b'.isFull then [] else [s.blocks.length], h'⟩, p) := by
    unfold allocate
    simp only [hens]
    simp only [List.getElem?_append_right (le_refl _), Nat.sub_self, List.getElem?_cons_zero, ea]
  refine ⟨s, live, _, p, hr, hl, hal, Reach.alloc hr hal, ?_⟩
  rintro q hq ⟨cells, hc, _⟩
  obtain ⟨i, b, lv, j, hb, hlv, hbl, hj, hoff⟩ := (hi.live_iff q).1 hq
  have hlt := (hi.ok i b lv hb hlv).base_lt hbl
  have hdl : ∀ (bs : List Block) (h : Heap), (deleteAll h bs).length = h.length := by
    intro bs
    induction bs with
    | nil => intro h; rfl
    | cons x xs ih =>
      intro h
      unfold deleteAll
      rw [List.foldl_cons]
      cases x.block with
      | none => exact ih h
      | some a => exact (ih (List.set h a none)).trans (by simp)
  have hnone := deleteAll_none s.blocks s.heap q.base (Or.inl ⟨b, List.mem_of_getElem? hb, hbl⟩) hlt
  simp only at hc
  rw [hfr q.base (by rw [hdl]; exact hlt), hnone] at hc
  cases hc

set_option maxRecDepth 100000 in
/-- Element size 0 is a second violation: the free-list link overwrites the block index, and a later
`deallocate` goes to a wrong block. Here freeing the second of two live elements, and then the first, makes the
code use an index that is not a block. -/
theorem C18_violation_size_zero : ∃ s p q r, Reach 0 s [r, q, p] ∧ ∃ s1, deallocate s q = some s1 ∧
    ∃ s2 p2, allocate s1 = some (s2, p2) ∧ p2 = q ∧ deallocate s2 q = none := by
  refine ⟨_, ⟨0, 0⟩, ⟨0, 1⟩, ⟨0, 2⟩, Reach.alloc (Reach.alloc (Reach.alloc Reach.init rfl) rfl) rfl, _, rfl, _, _,
    rfl, rfl, rfl⟩

end QM.BlockAllocator
