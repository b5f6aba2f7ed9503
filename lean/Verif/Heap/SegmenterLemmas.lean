import Verif.Heap.Segmenter

/-!
# Lemmas about the memory of the structural segmentation
-/

namespace QM.Heap

open Finset

theorem use_mem {h : Heap} {p s : Nat} {B : Multiset (Nat × Nat)} (hb : B ≤ h.live) (hp : (p, s) ∈ B) : use p h = some ((), h) := by
  rw [use, if_pos (Multiset.mem_map.2 ⟨(p, s), Multiset.mem_of_le hb hp, rfl⟩)]

theorem each_same {n : Nat} {body : Nat → M Unit} {h : Heap} (hb : ∀ i < n, body i h = some ((), h)) : each n body h = some ((), h) := by
  induction n with
  | zero => rfl
  | succ n ih =>
    show (each n body h).bind _ = _
    rw [ih fun i hi => hb i (by omega)]
    exact hb n (by omega)

theorem le_grow {h h' : Heap} {B X : Multiset (Nat × Nat)} (hb : B ≤ h.live) (l : h'.live = X + h.live) : B ≤ h'.live := by
  rw [l]
  exact hb.trans (Multiset.le_add_left _ _)

/-- What an array of rows owns. -/
def Rows.own (n s : Nat) (base : Nat) (f : Nat → Nat) : Multiset (Nat × Nat) := blk base (8 * n) + ∑ i ∈ range n, blk (f i) s

/-- The array of rows with these addresses. -/
def Rows.of (n base : Nat) (f : Nat → Nat) : Rows := ⟨base, (List.range n).map f⟩

theorem mem_rows {n s base : Nat} {f : Nat → Nat} {i : Nat} (hi : i < n) : (f i, s) ∈ Rows.own n s base f := by
  rw [Rows.own, Multiset.mem_add, Multiset.mem_sum]
  exact Or.inr ⟨i, mem_range.2 hi, Multiset.mem_singleton_self _⟩

theorem mem_base {n s base : Nat} {f : Nat → Nat} : (base, 8 * n) ∈ Rows.own n s base f := by
  rw [Rows.own, Multiset.mem_add]
  exact Or.inl (Multiset.mem_singleton_self _)

theorem allocRows_ok (n s : Nat) {h : Heap} (w : h.WF) :
    ∃ base f h', allocRows n s h = some (Rows.of n base f, h') ∧ h'.WF ∧ h'.live = Rows.own n s base f + h.live := by
  obtain ⟨base, h1, e1, w1, l1⟩ := malloc_ok w (8 * n)
  obtain ⟨f, h2, e2, w2, l2⟩ := rep_malloc n s w1
  refine ⟨base, f, h2, ?_, w2, ?_⟩
  · unfold allocRows
    refine step e1 ?_
    refine step e2 ?_
    rfl
  · rw [l2, l1, Rows.own]; abel

theorem touchRows_ok {n s base : Nat} {f : Nat → Nat} {h : Heap} (hb : Rows.own n s base f ≤ h.live) :
    touchRows n (Rows.of n base f) h = some ((), h) := by
  refine each_same fun i hi => ?_
  refine step (use_mem hb mem_base) ?_
  refine step (rd_ok f hi h) ?_
  exact use_mem hb (mem_rows hi)

theorem freeRows_ok {n s base : Nat} {f : Nat → Nat} {h : Heap} (w : h.WF) {rest : Multiset (Nat × Nat)} (e : h.live = Rows.own n s base f + rest) :
    ∃ h', freeRows n (Rows.of n base f) h = some ((), h') ∧ h'.WF ∧ h'.live = rest := by
  obtain ⟨h1, e1, w1, l1⟩ := each_ok (n := n) (C := blk base (8 * n)) (own := fun i => blk (f i) s) (rest := rest)
    (body := fun i => do
      use (Rows.of n base f).base
      let p ← rd (Rows.of n base f).rows i
      free p)
    (by
      intro i hi h rest w e
      obtain ⟨h1, e1, w1, l1⟩ := free_ok w e
      refine ⟨h1, ?_, w1, l1⟩
      refine step (use_ok (p := base) (s := 8 * n) (rest := blk (f i) s + rest) (by rw [e]; abel)) ?_
      refine step (rd_ok f hi h) ?_
      exact e1) w (by rw [e, Rows.own]; abel)
  obtain ⟨h2, e2, w2, l2⟩ := free_ok w1 l1
  refine ⟨h2, ?_, w2, l2⟩
  unfold freeRows
  refine step e1 ?_
  exact e2

/-- Two allocations in each pass of a loop. -/
theorem rep_pair (n s t : Nat) {h : Heap} (w : h.WF) :
    ∃ (f g : Nat → Nat) (h' : Heap), rep n (do
      let x ← malloc s
      let y ← malloc t
      pure (x, y)) h = some ((List.range n).map fun i => (f i, g i), h') ∧ h'.WF ∧
      h'.live = (∑ i ∈ range n, blk (f i) s + ∑ i ∈ range n, blk (g i) t) + h.live := by
  obtain ⟨f, h', e, w', l, -⟩ := rep_ok (own := fun p : Nat × Nat => blk p.1 s + blk p.2 t) (good := fun _ => True) (body := (do
      let x ← malloc s
      let y ← malloc t
      pure (x, y)))
    (fun h w => by
      obtain ⟨p, h1, e1, w1, l1⟩ := malloc_ok w s
      obtain ⟨q, h2, e2, w2, l2⟩ := malloc_ok w1 t
      refine ⟨(p, q), h2, ?_, w2, by rw [l2, l1]; abel, trivial⟩
      refine step e1 ?_
      refine step e2 ?_
      rfl) n w
  exact ⟨fun i => (f i).1, fun i => (f i).2, h', e, w', by rw [l, sum_add_distrib]⟩

/-- The addresses of a model. -/
structure At where
  self : Nat
  p0 : Nat
  a : Nat
  mu : Nat
  f : Nat → Nat
  g : Nat → Nat
  cov : Nat
  c : Nat → Nat

/-- The model with these addresses. -/
def At.model (x : At) (N L : Nat) : Model :=
  ⟨N, L, x.self, x.p0, x.a, x.mu, (List.range N).map fun i => (x.f i, x.g i), Rows.of L x.cov x.c⟩

/-- What a model owns, without the initial probabilities. -/
def At.own (x : At) (N L : Nat) : Multiset (Nat × Nat) :=
  blk x.self 48 + blk x.a (8 * N) + blk x.mu (8 * N) + (∑ i ∈ range N, blk (x.f i) (8 * N) + ∑ i ∈ range N, blk (x.g i) (8 * L)) + Rows.own L (8 * L) x.cov x.c

theorem At.cov_le (x : At) (N L : Nat) : Rows.own L (8 * L) x.cov x.c ≤ x.own N L := Multiset.le_add_left _ _

theorem touch_ok {x : At} {N L : Nat} {h : Heap} (hb : x.own N L + blk x.p0 (8 * N) ≤ h.live) : (x.model N L).touch h = some ((), h) := by
  have m1 : (x.self, 48) ∈ x.own N L + blk x.p0 (8 * N) := by simp [At.own]
  have m2 : (x.p0, 8 * N) ∈ x.own N L + blk x.p0 (8 * N) := by simp
  have m3 : (x.a, 8 * N) ∈ x.own N L + blk x.p0 (8 * N) := by simp [At.own]
  have m4 : (x.mu, 8 * N) ∈ x.own N L + blk x.p0 (8 * N) := by simp [At.own]
  have m5 : ∀ i < N, (x.f i, 8 * N) ∈ x.own N L + blk x.p0 (8 * N) := by
    intro i hi
    have : (x.f i, 8 * N) ∈ ∑ i ∈ range N, blk (x.f i) (8 * N) := Multiset.mem_sum.2 ⟨i, mem_range.2 hi, Multiset.mem_singleton_self _⟩
    simp only [At.own, Multiset.mem_add, this, true_or, or_true]
  have m6 : ∀ i < N, (x.g i, 8 * L) ∈ x.own N L + blk x.p0 (8 * N) := by
    intro i hi
    have : (x.g i, 8 * L) ∈ ∑ i ∈ range N, blk (x.g i) (8 * L) := Multiset.mem_sum.2 ⟨i, mem_range.2 hi, Multiset.mem_singleton_self _⟩
    simp only [At.own, Multiset.mem_add, this, true_or, or_true]
  unfold Model.touch
  refine step (use_mem (p := (x.model N L).self) hb m1) ?_
  refine step (use_mem (p := (x.model N L).p0) hb m2) ?_
  refine step (each_same fun i hi => ?_) ?_
  · refine step (use_mem (p := (x.model N L).a) hb m3) ?_
    refine step (use_mem (p := (x.model N L).mu) hb m4) ?_
    refine step (rd_ok (fun i => (x.f i, x.g i)) hi h) ?_
    refine step (use_mem (p := x.f i) hb (m5 i hi)) ?_
    exact use_mem hb (m6 i hi)
  · exact touchRows_ok (((x.cov_le N L).trans (Multiset.le_add_right _ _)).trans hb)

theorem hmmInit_ok (N L : Nat) {h : Heap} (w : h.WF) :
    ∃ (x : At) (h' : Heap), hmmInit N L h = some (x.model N L, h') ∧ h'.WF ∧ h'.live = x.own N L + blk x.p0 (8 * N) + h.live := by
  obtain ⟨self, h1, e1, w1, l1⟩ := malloc_ok w 48
  obtain ⟨p0, h2, e2, w2, l2⟩ := malloc_ok w1 (8 * N)
  obtain ⟨a, h3, e3, w3, l3⟩ := malloc_ok w2 (8 * N)
  obtain ⟨mu, h4, e4, w4, l4⟩ := malloc_ok w3 (8 * N)
  obtain ⟨f, g, h5, e5, w5, l5⟩ := rep_pair N (8 * N) (8 * L) w4
  obtain ⟨cov, c, h6, e6, w6, l6⟩ := allocRows_ok L (8 * L) w5
  obtain ⟨gm, h7, e7, w7, l7⟩ := malloc_ok w6 (8 * L)
  let x : At := ⟨self, p0, a, mu, f, g, cov, c⟩
  have hl : h6.live = x.own N L + blk x.p0 (8 * N) + h.live := by
    rw [l6, l5, l4, l3, l2, l1]
    show _ = blk self 48 + blk a (8 * N) + blk mu (8 * N) + (∑ i ∈ range N, blk (f i) (8 * N) + ∑ i ∈ range N, blk (g i) (8 * L)) +
      Rows.own L (8 * L) cov c + blk p0 (8 * N) + h.live
    abel
  have ht : (x.model N L).touch h7 = some ((), h7) := touch_ok (le_grow (by rw [hl]; exact Multiset.le_add_right _ _) l7)
  obtain ⟨h8, e8, w8, l8⟩ := free_ok w7 l7
  refine ⟨x, h8, ?_, w8, l8.trans hl⟩
  unfold hmmInit
  refine step e1 ?_
  refine step e2 ?_
  refine step e3 ?_
  refine step e4 ?_
  refine step e5 ?_
  refine step e6 ?_
  refine step e7 ?_
  show ((x.model N L).touch >>= _) h7 = _
  refine step ht ?_
  refine step (use_ok l7) ?_
  refine step e8 ?_
  rfl

theorem hmmClose_ok {x : At} {N L : Nat} {h : Heap} (w : h.WF) {rest : Multiset (Nat × Nat)} (e : h.live = x.own N L + rest) :
    ∃ h', hmmClose (x.model N L) h = some ((), h') ∧ h'.WF ∧ h'.live = rest := by
  obtain ⟨h1, e1, w1, l1⟩ := each_ok (n := N) (C := blk x.self 48 + blk x.a (8 * N) + blk x.mu (8 * N)) (own := fun i => blk (x.f i) (8 * N) + blk (x.g i) (8 * L))
    (rest := Rows.own L (8 * L) x.cov x.c + rest)
    (body := fun i => do
      use (x.model N L).self
      use (x.model N L).a
      let r ← rd (x.model N L).rows i
      free r.1
      use (x.model N L).mu
      free r.2)
    (by
      intro i hi h rest w e
      obtain ⟨h1, e1, w1, l1⟩ := free_ok (p := x.f i) (s := 8 * N) (rest := blk (x.g i) (8 * L) + (blk x.self 48 + blk x.a (8 * N) + blk x.mu (8 * N) + rest)) w (by rw [e]; abel)
      obtain ⟨h2, e2, w2, l2⟩ := free_ok w1 l1
      refine ⟨h2, ?_, w2, l2⟩
      refine step (use_ok (p := x.self) (s := 48) (rest := blk (x.f i) (8 * N) + blk (x.g i) (8 * L) + (blk x.a (8 * N) + blk x.mu (8 * N) + rest)) (by rw [e]; abel)) ?_
      refine step (use_ok (p := x.a) (s := 8 * N) (rest := blk (x.f i) (8 * N) + blk (x.g i) (8 * L) + (blk x.self 48 + blk x.mu (8 * N) + rest)) (by rw [e]; abel)) ?_
      refine step (rd_ok (fun i => (x.f i, x.g i)) hi h) ?_
      refine step e1 ?_
      refine step (use_ok (p := x.mu) (s := 8 * N) (rest := blk (x.g i) (8 * L) + (blk x.self 48 + blk x.a (8 * N) + rest)) (by rw [l1]; abel)) ?_
      exact e2) w (by rw [e, At.own, sum_add_distrib]; abel)
  obtain ⟨h2, e2, w2, l2⟩ := free_ok (p := x.a) (s := 8 * N) (rest := blk x.self 48 + blk x.mu (8 * N) + (Rows.own L (8 * L) x.cov x.c + rest)) w1 (by rw [l1]; abel)
  obtain ⟨h3, e3, w3, l3⟩ := free_ok (p := x.mu) (s := 8 * N) (rest := blk x.self 48 + (Rows.own L (8 * L) x.cov x.c + rest)) w2 (by rw [l2]; abel)
  obtain ⟨h4, e4, w4, l4⟩ := freeRows_ok (n := L) (s := 8 * L) (base := x.cov) (f := x.c) (rest := blk x.self 48 + rest) w3 (by rw [l3]; abel)
  obtain ⟨h5, e5, w5, l5⟩ := free_ok w4 l4
  refine ⟨h5, ?_, w5, l5⟩
  unfold hmmClose
  have e2' : free (x.model N L).a h1 = some ((), h2) := e2
  have e3' : free (x.model N L).mu h2 = some ((), h3) := e3
  have e4' : freeRows (x.model N L).L (x.model N L).cov h3 = some ((), h4) := e4
  refine step e1 ?_
  refine step e2' ?_
  refine step e3' ?_
  refine step e4' ?_
  exact e5

/-- `invert` leaves the pivots behind. -/
theorem invert_ok (nb L : Nat) {cb ib : Nat} {c i : Nat → Nat} {s t : Nat} {h : Heap} (w : h.WF) (hc : Rows.own L s cb c ≤ h.live) (hi : Rows.own L t ib i ≤ h.live) :
    ∃ (p : Nat) (h' : Heap), invert nb L (Rows.of L cb c) (Rows.of L ib i) h = some ((), h') ∧ h'.WF ∧ h'.live = blk p (4 * (L * L)) + h.live := by
  obtain ⟨a, h1, e1, w1, l1⟩ := malloc_ok w (8 * (L * L))
  obtain ⟨p, h2, e2, w2, l2⟩ := malloc_ok w1 (4 * (L * L))
  obtain ⟨q, h3, e3, w3, l3⟩ := malloc_ok w2 (8 * (L * nb))
  obtain ⟨h4, e4, w4, l4⟩ := free_ok w3 l3
  obtain ⟨h5, e5, w5, l5⟩ := free_ok (p := a) (s := 8 * (L * L)) (rest := blk p (4 * (L * L)) + h.live) w4 (by rw [l4, l2, l1]; abel)
  refine ⟨p, h5, ?_, w5, l5⟩
  unfold invert
  refine step e1 ?_
  refine step (touchRows_ok (le_grow hc l1)) ?_
  refine step (use_ok l1) ?_
  refine step e2 ?_
  refine step (use_ok l2) ?_
  refine step e3 ?_
  refine step (use_ok l3) ?_
  refine step (touchRows_ok (le_grow (le_grow (le_grow hi l1) l2) l3)) ?_
  refine step e4 ?_
  exact e5

theorem forwardBackwards_ok (N T : Nat) {h : Heap} (w : h.WF) : ∃ h', forwardBackwards N T h = some ((), h') ∧ h'.WF ∧ h'.live = h.live := by
  obtain ⟨a, h1, e1, w1, l1⟩ := malloc_ok w (8 * T)
  obtain ⟨b, h2, e2, w2, l2⟩ := malloc_ok w1 (8 * T)
  obtain ⟨f, g, h3, e3, w3, l3⟩ := rep_pair T (8 * N) (8 * N) w2
  obtain ⟨c, h4, e4, w4, l4⟩ := malloc_ok w3 (8 * T)
  obtain ⟨h5, e5, w5, l5⟩ := each_ok (n := T) (C := blk a (8 * T) + blk b (8 * T)) (own := fun i => blk (f i) (8 * N) + blk (g i) (8 * N)) (rest := blk c (8 * T) + h.live)
    (body := fun t => do
      use a
      let r ← rd ((List.range T).map fun i => (f i, g i)) t
      free r.1
      use b
      free r.2)
    (by
      intro i hi h rest w e
      obtain ⟨h1, e1, w1, l1⟩ := free_ok (p := f i) (s := 8 * N) (rest := blk (g i) (8 * N) + (blk a (8 * T) + blk b (8 * T) + rest)) w (by rw [e]; abel)
      obtain ⟨h2, e2, w2, l2⟩ := free_ok w1 l1
      refine ⟨h2, ?_, w2, l2⟩
      refine step (use_ok (p := a) (s := 8 * T) (rest := blk (f i) (8 * N) + blk (g i) (8 * N) + (blk b (8 * T) + rest)) (by rw [e]; abel)) ?_
      refine step (rd_ok (fun i => (f i, g i)) hi h) ?_
      refine step e1 ?_
      refine step (use_ok (p := b) (s := 8 * T) (rest := blk (g i) (8 * N) + (blk a (8 * T) + rest)) (by rw [l1]; abel)) ?_
      exact e2) w4 (by rw [l4, l3, l2, l1, sum_add_distrib]; abel)
  obtain ⟨h6, e6, w6, l6⟩ := free_ok (p := a) (s := 8 * T) (rest := blk b (8 * T) + (blk c (8 * T) + h.live)) w5 (by rw [l5]; abel)
  obtain ⟨h7, e7, w7, l7⟩ := free_ok w6 l6
  obtain ⟨h8, e8, w8, l8⟩ := free_ok w7 l7
  refine ⟨h8, ?_, w8, l8⟩
  unfold forwardBackwards
  refine step e1 ?_
  refine step e2 ?_
  refine step e3 ?_
  refine step e4 ?_
  refine step (use_ok l4) ?_
  refine step e5 ?_
  refine step e6 ?_
  refine step e7 ?_
  exact e8

theorem baumWelch_ok {x : At} {N L : Nat} (T : Nat) {h : Heap} (w : h.WF) (hb : x.own N L + blk x.p0 (8 * N) ≤ h.live) :
    ∃ h', baumWelch N T L (x.model N L) h = some ((), h') ∧ h'.WF ∧ h'.live = h.live := by
  obtain ⟨a, h1, e1, w1, l1⟩ := malloc_ok w (8 * N)
  obtain ⟨b, h2, e2, w2, l2⟩ := malloc_ok w1 (8 * (L * L))
  obtain ⟨c, h3, e3, w3, l3⟩ := malloc_ok w2 (8 * (T * L))
  obtain ⟨d, h4, e4, w4, l4⟩ := malloc_ok w3 (8 * (T * L))
  have l4' : h4.live = blk a (8 * N) + (blk b (8 * (L * L)) + (blk c (8 * (T * L)) + (blk d (8 * (T * L)) + h.live))) := by rw [l4, l3, l2, l1]; abel
  obtain ⟨h5, e5, w5, l5⟩ := free_ok w4 l4'
  obtain ⟨h6, e6, w6, l6⟩ := free_ok (p := c) (s := 8 * (T * L)) (rest := blk d (8 * (T * L)) + (blk b (8 * (L * L)) + h.live)) w5 (by rw [l5]; abel)
  obtain ⟨h7, e7, w7, l7⟩ := free_ok w6 l6
  obtain ⟨h8, e8, w8, l8⟩ := free_ok w7 l7
  refine ⟨h8, ?_, w8, l8⟩
  unfold baumWelch
  refine step e1 ?_
  refine step e2 ?_
  refine step e3 ?_
  refine step e4 ?_
  refine step (use_ok l4') ?_
  refine step (use_ok (p := b) (s := 8 * (L * L)) (rest := blk a (8 * N) + (blk c (8 * (T * L)) + (blk d (8 * (T * L)) + h.live))) (by rw [l4']; abel)) ?_
  refine step (use_ok (p := c) (s := 8 * (T * L)) (rest := blk a (8 * N) + (blk b (8 * (L * L)) + (blk d (8 * (T * L)) + h.live))) (by rw [l4']; abel)) ?_
  refine step (use_ok l4) ?_
  refine step (touch_ok (le_grow (le_grow (le_grow (le_grow hb l1) l2) l3) l4)) ?_
  refine step e5 ?_
  refine step e6 ?_
  refine step e7 ?_
  exact e8

theorem trainPasses_ok {x : At} {N L ib : Nat} {i : Nat → Nat} (nb T : Nat) (oks : List Bool) {h : Heap} (w : h.WF) (hb : x.own N L + blk x.p0 (8 * N) ≤ h.live)
    (hi : Rows.own L (8 * L) ib i ≤ h.live) :
    ∃ (lost : Multiset (Nat × Nat)) (h' : Heap), trainPasses nb T (x.model N L) (Rows.of L ib i) oks h = some ((), h') ∧ h'.WF ∧ h'.live = lost + h.live ∧
      lost.map Prod.snd = Multiset.replicate oks.length (4 * (L * L)) := by
  induction oks generalizing h with
  | nil => exact ⟨0, h, rfl, w, by simp, by simp⟩
  | cons ok oks ih =>
    obtain ⟨p, h1, e1, w1, l1⟩ := invert_ok nb L w (((x.cov_le N L).trans (Multiset.le_add_right _ _)).trans hb) hi
    obtain ⟨h2, e2, w2, l2⟩ := forwardBackwards_ok N T w1
    have hb1 := le_grow hb l1
    obtain ⟨h3, e3, w3, l3⟩ : ∃ h', (if ok then baumWelch N T L (x.model N L) else pure ()) h2 = some ((), h') ∧ h'.WF ∧ h'.live = h2.live := by
      cases ok with
      | true => exact baumWelch_ok T w2 (by rw [l2]; exact hb1)
      | false => exact ⟨h2, rfl, w2, rfl⟩
    have l3' : h3.live = blk p (4 * (L * L)) + h.live := by rw [l3, l2, l1]
    obtain ⟨lost, h4, e4, w4, l4, s4⟩ := ih w3 (le_grow hb l3') (le_grow hi l3')
    refine ⟨lost + blk p (4 * (L * L)), h4, ?_, w4, by rw [l4, l3']; abel, ?_⟩
    · show (trainPass nb T (x.model N L) (Rows.of L ib i) ok >>= _) h = _
      have : trainPass nb T (x.model N L) (Rows.of L ib i) ok h = some ((), h3) := by
        unfold trainPass
        have e1' : invert nb (x.model N L).L (x.model N L).cov (Rows.of L ib i) h = some ((), h1) := e1
        have e2' : forwardBackwards (x.model N L).N T h1 = some ((), h2) := e2
        refine step e1' ?_
        refine step (touch_ok hb1) ?_
        refine step e2' ?_
        exact e3
      refine step this ?_
      exact e4
    · rw [Multiset.map_add, s4, Multiset.map_singleton, List.length_cons, Multiset.replicate_add, Multiset.replicate_one]

/-- What `hmm_train` allocates for each frame, and its release. -/
theorem trainFrame_ok {N T gamma xi b t : Nat} {g y q : Nat → Nat} {z : Nat → Nat → Nat} (ht : t < T) {h : Heap} (w : h.WF) {rest : Multiset (Nat × Nat)}
    (e : h.live = blk (g t) (8 * N) + blk (y t) (8 * N) + ∑ i ∈ range N, blk (z t i) (8 * N) + blk (q t) (8 * N) +
      (blk gamma (8 * T) + blk xi (8 * T) + blk b (8 * T) + rest)) :
    ∃ h', (do
      use gamma
      let r ← rd ((List.range T).map fun t => (g t, y t, (List.range N).map (z t))) t
      free r.1
      use b
      let q ← rd ((List.range T).map q) t
      free q
      each N fun i => do
        use xi
        use r.2.1
        let p ← rd r.2.2 i
        free p
      use xi
      free r.2.1) h = some ((), h') ∧ h'.WF ∧ h'.live = blk gamma (8 * T) + blk xi (8 * T) + blk b (8 * T) + rest := by
  obtain ⟨h1, e1, w1, l1⟩ := free_ok (p := g t) (s := 8 * N) (rest := blk (y t) (8 * N) + ∑ i ∈ range N, blk (z t i) (8 * N) + blk (q t) (8 * N) +
      (blk gamma (8 * T) + blk xi (8 * T) + blk b (8 * T) + rest)) w (by rw [e]; abel)
  obtain ⟨h2, e2, w2, l2⟩ := free_ok (p := q t) (s := 8 * N) (rest := blk (y t) (8 * N) + ∑ i ∈ range N, blk (z t i) (8 * N) +
      (blk gamma (8 * T) + blk xi (8 * T) + blk b (8 * T) + rest)) w1 (by rw [l1]; abel)
  obtain ⟨h3, e3, w3, l3⟩ := each_ok (n := N) (C := blk xi (8 * T) + blk (y t) (8 * N)) (own := fun i => blk (z t i) (8 * N))
    (rest := blk gamma (8 * T) + blk b (8 * T) + rest)
    (body := fun i => do
        use xi
        use (y t)
        let p ← rd ((List.range N).map (z t)) i
        free p)
    (by
      intro i hi h rest w e
      obtain ⟨h1, e1, w1, l1⟩ := free_ok w e
      refine ⟨h1, ?_, w1, l1⟩
      refine step (use_ok (p := xi) (s := 8 * T) (rest := blk (z t i) (8 * N) + (blk (y t) (8 * N) + rest)) (by rw [e]; abel)) ?_
      refine step (use_ok (p := y t) (s := 8 * N) (rest := blk (z t i) (8 * N) + (blk xi (8 * T) + rest)) (by rw [e]; abel)) ?_
      refine step (rd_ok (z t) hi h) ?_
      exact e1) w2 (by rw [l2]; abel)
  obtain ⟨h4, e4, w4, l4⟩ := free_ok (p := y t) (s := 8 * N) (rest := blk gamma (8 * T) + blk xi (8 * T) + blk b (8 * T) + rest) w3 (by rw [l3]; abel)
  refine ⟨h4, ?_, w4, l4⟩
  refine step (use_ok (p := gamma) (s := 8 * T) (rest := blk (g t) (8 * N) + blk (y t) (8 * N) + ∑ i ∈ range N, blk (z t i) (8 * N) + blk (q t) (8 * N) +
      (blk xi (8 * T) + blk b (8 * T) + rest)) (by rw [e]; abel)) ?_
  refine step (rd_ok (fun t => (g t, y t, (List.range N).map (z t))) ht h) ?_
  refine step e1 ?_
  refine step (use_ok (p := b) (s := 8 * T) (rest := blk (y t) (8 * N) + ∑ i ∈ range N, blk (z t i) (8 * N) + blk (q t) (8 * N) +
      (blk gamma (8 * T) + blk xi (8 * T) + rest)) (by rw [l1]; abel)) ?_
  refine step (rd_ok q ht h1) ?_
  refine step e2 ?_
  refine step e3 ?_
  refine step (use_ok (p := xi) (s := 8 * T) (rest := blk (y t) (8 * N) + (blk gamma (8 * T) + blk b (8 * T) + rest)) (by rw [l3]; abel)) ?_
  exact e4

theorem hmmTrain_ok {x : At} {N L : Nat} (nb T : Nat) (oks : List Bool) {h : Heap} (w : h.WF) (hb : x.own N L + blk x.p0 (8 * N) ≤ h.live) :
    ∃ (lost : Multiset (Nat × Nat)) (h' : Heap), hmmTrain nb T (x.model N L) oks h = some ((), h') ∧ h'.WF ∧ h'.live = lost + h.live ∧
      lost.map Prod.snd = Multiset.replicate oks.length (4 * (L * L)) := by
  obtain ⟨gamma, h1, e1, w1, l1⟩ := malloc_ok w (8 * T)
  obtain ⟨xi, h2, e2, w2, l2⟩ := malloc_ok w1 (8 * T)
  obtain ⟨gx, h3, e3, w3, l3, g3⟩ := rep_ok (own := fun p : Nat × Nat × List Nat => blk p.1 (8 * N) + blk p.2.1 (8 * N) + (p.2.2.map fun q => blk q (8 * N)).sum)
    (good := fun p => ∃ z : Nat → Nat, p.2.2 = (List.range N).map z)
    (body := (do
      let g ← malloc (8 * N)
      let x ← malloc (8 * N)
      let xs ← rep N (malloc (8 * N))
      pure (g, x, xs)))
    (fun h w => by
      obtain ⟨p, h1, e1, w1, l1⟩ := malloc_ok w (8 * N)
      obtain ⟨q, h2, e2, w2, l2⟩ := malloc_ok w1 (8 * N)
      obtain ⟨z, h3, e3, w3, l3⟩ := rep_malloc N (8 * N) w2
      refine ⟨(p, q, (List.range N).map z), h3, step e1 (step e2 (step e3 rfl)), w3, ?_, z, rfl⟩
      have : (((List.range N).map z).map fun q => blk q (8 * N)).sum = ∑ i ∈ range N, blk (z i) (8 * N) := by
        rw [List.map_map]; rfl
      rw [l3, l2, l1, this]; abel) T w2
  choose! z hz using g3
  have l3' : h3.live = ∑ t ∈ range T, (blk (gx t).1 (8 * N) + blk (gx t).2.1 (8 * N) + ∑ i ∈ range N, blk (z t i) (8 * N)) + h2.live := by
    rw [l3]
    congr 1
    refine sum_congr rfl fun t ht => ?_
    rw [hz t (mem_range.1 ht), List.map_map]; rfl
  have e3' : rep T (do
      let g ← malloc (8 * N)
      let x ← malloc (8 * N)
      let xs ← rep N (malloc (8 * N))
      pure (g, x, xs)) h2 = some ((List.range T).map fun t => ((gx t).1, (gx t).2.1, (List.range N).map (z t)), h3) := by
    rw [e3]
    congr 2
    refine List.map_congr_left fun t ht => ?_
    rw [← hz t (List.mem_range.1 ht)]
  obtain ⟨gy, h4, e4, w4, l4⟩ := malloc_ok w3 (8 * L)
  obtain ⟨gz, h5, e5, w5, l5⟩ := malloc_ok w4 (8 * L)
  obtain ⟨b, h6, e6, w6, l6⟩ := malloc_ok w5 (8 * T)
  obtain ⟨q, h7, e7, w7, l7⟩ := rep_malloc T (8 * N) w6
  obtain ⟨ib, i, h8, e8, w8, l8⟩ := allocRows_ok L (8 * L) w7
  obtain ⟨lost, h9, e9, w9, l9, s9⟩ := trainPasses_ok nb T oks w8
    (le_grow (le_grow (le_grow (le_grow (le_grow (le_grow (le_grow (le_grow hb l1) l2) l3') l4) l5) l6) l7) l8) (by rw [l8]; exact Multiset.le_add_right _ _)
  obtain ⟨h10, e10, w10, l10⟩ := each_ok (n := T) (C := blk gamma (8 * T) + blk xi (8 * T) + blk b (8 * T))
    (own := fun t => blk (gx t).1 (8 * N) + blk (gx t).2.1 (8 * N) + ∑ i ∈ range N, blk (z t i) (8 * N) + blk (q t) (8 * N))
    (rest := blk gy (8 * L) + (blk gz (8 * L) + (Rows.own L (8 * L) ib i + (lost + h.live))))
    (fun t ht h rest w e => trainFrame_ok (g := fun t => (gx t).1) (y := fun t => (gx t).2.1) ht w e) w9
    (by
      rw [sum_add_distrib (g := fun t => blk (q t) (8 * N)), l9, l8, l7, l6, l5, l4, l3', l2, l1]
      abel)
  obtain ⟨h11, e11, w11, l11⟩ := free_ok (p := gamma) (s := 8 * T) (rest := blk xi (8 * T) + (blk b (8 * T) + (Rows.own L (8 * L) ib i + (blk gy (8 * L) + (blk gz (8 * L) + (lost + h.live))))))
    w10 (by rw [l10]; abel)
  obtain ⟨h12, e12, w12, l12⟩ := free_ok w11 l11
  obtain ⟨h13, e13, w13, l13⟩ := free_ok w12 l12
  obtain ⟨h14, e14, w14, l14⟩ := freeRows_ok w13 l13
  obtain ⟨h15, e15, w15, l15⟩ := free_ok w14 l14
  obtain ⟨h16, e16, w16, l16⟩ := free_ok w15 l15
  refine ⟨lost, h16, ?_, w16, l16, s9⟩
  unfold hmmTrain
  exact step e1 (step e2 (step e3' (step e4 (step e5 (step e6 (step e7 (step e8 (step e9 (step e10 (step e11 (step e12 (step e13 (step e14 (step e15 e16))))))))))))))

theorem viterbi_ok {x : At} {N L : Nat} (nb T : Nat) {h : Heap} (w : h.WF) (hb : x.own N L + blk x.p0 (8 * N) ≤ h.live) :
    ∃ (p : Nat) (h' : Heap), viterbi nb T (x.model N L) h = some ((), h') ∧ h'.WF ∧ h'.live = blk p (4 * (L * L)) + h.live := by
  obtain ⟨ib, i, h1, e1, w1, l1⟩ := allocRows_ok L (8 * L) w
  obtain ⟨a, h2, e2, w2, l2⟩ := malloc_ok w1 (8 * T)
  obtain ⟨b, h3, e3, w3, l3⟩ := malloc_ok w2 (8 * T)
  obtain ⟨c, h4, e4, w4, l4⟩ := malloc_ok w3 (8 * T)
  obtain ⟨f, h5, e5, w5, l5, -⟩ := rep_ok (own := fun p : Nat × Nat × Nat => blk p.1 (8 * N) + blk p.2.1 (8 * N) + blk p.2.2 (4 * N)) (good := fun _ => True)
    (body := (do
      let x ← malloc (8 * N)
      let y ← malloc (8 * N)
      let z ← malloc (4 * N)
      pure (x, y, z)))
    (fun h w => by
      obtain ⟨p, h1, e1, w1, l1⟩ := malloc_ok w (8 * N)
      obtain ⟨q, h2, e2, w2, l2⟩ := malloc_ok w1 (8 * N)
      obtain ⟨r, h3, e3, w3, l3⟩ := malloc_ok w2 (4 * N)
      exact ⟨(p, q, r), h3, step e1 (step e2 (step e3 rfl)), w3, by rw [l3, l2, l1]; abel, trivial⟩) T w4
  obtain ⟨gy, h6, e6, w6, l6⟩ := malloc_ok w5 (8 * L)
  obtain ⟨gz, h7, e7, w7, l7⟩ := malloc_ok w6 (8 * L)
  have hb7 : x.own N L + blk x.p0 (8 * N) ≤ h7.live := le_grow (le_grow (le_grow (le_grow (le_grow (le_grow (le_grow hb l1) l2) l3) l4) l5) l6) l7
  have hi1 : Rows.own L (8 * L) ib i ≤ h1.live := by rw [l1]; exact Multiset.le_add_right _ _
  obtain ⟨p, h8, e8, w8, l8⟩ := invert_ok nb L w7 (((x.cov_le N L).trans (Multiset.le_add_right _ _)).trans hb7)
    (le_grow (le_grow (le_grow (le_grow (le_grow (le_grow hi1 l2) l3) l4) l5) l6) l7)
  obtain ⟨h9, e9, w9, l9⟩ := freeRows_ok (n := L) (s := 8 * L) (base := ib) (f := i)
    (rest := ∑ t ∈ range T, (blk (f t).1 (8 * N) + blk (f t).2.1 (8 * N) + blk (f t).2.2 (4 * N)) + (blk a (8 * T) + blk b (8 * T) + blk c (8 * T) +
      (blk gy (8 * L) + (blk gz (8 * L) + (blk p (4 * (L * L)) + h.live))))) w8 (by rw [l8, l7, l6, l5, l4, l3, l2, l1]; abel)
  obtain ⟨h10, e10, w10, l10⟩ := each_ok (n := T) (C := blk a (8 * T) + blk b (8 * T) + blk c (8 * T))
    (body := fun t => do
      use a
      let r ← rd ((List.range T).map f) t
      free r.1
      use b
      free r.2.1
      use c
      free r.2.2)
    (by
      intro t ht h rest w e
      obtain ⟨h1, e1, w1, l1⟩ := free_ok (p := (f t).1) (s := 8 * N) (rest := blk (f t).2.1 (8 * N) + (blk (f t).2.2 (4 * N) + (blk a (8 * T) + blk b (8 * T) + blk c (8 * T) + rest))) w
        (by rw [e]; abel)
      obtain ⟨h2, e2, w2, l2⟩ := free_ok w1 l1
      obtain ⟨h3, e3, w3, l3⟩ := free_ok w2 l2
      refine ⟨h3, ?_, w3, l3⟩
      refine step (use_ok (p := a) (s := 8 * T) (rest := blk (f t).1 (8 * N) + blk (f t).2.1 (8 * N) + blk (f t).2.2 (4 * N) + (blk b (8 * T) + blk c (8 * T) + rest)) (by rw [e]; abel)) ?_
      refine step (rd_ok f ht h) ?_
      refine step e1 ?_
      refine step (use_ok (p := b) (s := 8 * T) (rest := blk (f t).2.1 (8 * N) + blk (f t).2.2 (4 * N) + (blk a (8 * T) + blk c (8 * T) + rest)) (by rw [l1]; abel)) ?_
      refine step e2 ?_
      refine step (use_ok (p := c) (s := 8 * T) (rest := blk (f t).2.2 (4 * N) + (blk a (8 * T) + blk b (8 * T) + rest)) (by rw [l2]; abel)) ?_
      exact e3) w9 l9
  obtain ⟨h11, e11, w11, l11⟩ := free_ok (p := a) (s := 8 * T) (rest := blk b (8 * T) + (blk c (8 * T) + (blk gy (8 * L) + (blk gz (8 * L) + (blk p (4 * (L * L)) + h.live)))))
    w10 (by rw [l10]; abel)
  obtain ⟨h12, e12, w12, l12⟩ := free_ok w11 l11
  obtain ⟨h13, e13, w13, l13⟩ := free_ok w12 l12
  obtain ⟨h14, e14, w14, l14⟩ := free_ok w13 l13
  obtain ⟨h15, e15, w15, l15⟩ := free_ok w14 l14
  refine ⟨p, h15, ?_, w15, l15⟩
  unfold viterbi
  exact step e1 (step e2 (step e3 (step e4 (step e5 (step e6 (step e7 (step e8 (step (touch_ok (le_grow hb7 l8)) (step e9 (step e10 (step e11 (step e12 (step e13 (step e14 e15))))))))))))))

theorem clusterMelt_ok (m n k : Nat) {h : Heap} (w : h.WF) : ∃ h', clusterMelt m n k h = some ((), h') ∧ h'.WF ∧ h'.live = h.live := by
  obtain ⟨a, f, h1, e1, w1, l1⟩ := allocRows_ok k (8 * m) w
  obtain ⟨b, g, h2, e2, w2, l2⟩ := allocRows_ok n (4 * k) w1
  obtain ⟨c, i, h3, e3, w3, l3⟩ := allocRows_ok n (8 * k) w2
  obtain ⟨d, h4, e4, w4, l4⟩ := malloc_ok w3 (4 * n)
  have b1 : Rows.own k (8 * m) a f ≤ h4.live := le_grow (le_grow (le_grow (by rw [l1]; exact Multiset.le_add_right _ _) l2) l3) l4
  have b2 : Rows.own n (4 * k) b g ≤ h4.live := le_grow (le_grow (by rw [l2]; exact Multiset.le_add_right _ _) l3) l4
  have b3 : Rows.own n (8 * k) c i ≤ h4.live := le_grow (by rw [l3]; exact Multiset.le_add_right _ _) l4
  obtain ⟨h5, e5, w5, l5⟩ := freeRows_ok (n := k) (s := 8 * m) (base := a) (f := f) (rest := Rows.own n (4 * k) b g + (Rows.own n (8 * k) c i + (blk d (4 * n) + h.live))) w4
    (by rw [l4, l3, l2, l1]; abel)
  obtain ⟨h6, e6, w6, l6⟩ := freeRows_ok w5 l5
  obtain ⟨h7, e7, w7, l7⟩ := freeRows_ok w6 l6
  obtain ⟨h8, e8, w8, l8⟩ := free_ok w7 l7
  refine ⟨h8, ?_, w8, l8⟩
  unfold clusterMelt
  exact step e1 (step e2 (step e3 (step e4 (step (touchRows_ok b1) (step (touchRows_ok b2) (step (touchRows_ok b3) (step (use_ok l4) (step e5 (step e6 (step e7 e8))))))))))

theorem clusterSegment_ok (nb T L N k : Nat) (oks : List Bool) {h : Heap} (w : h.WF) :
    ∃ (lost : Multiset (Nat × Nat)) (h' : Heap), clusterSegment nb T L N k oks h = some ((), h') ∧ h'.WF ∧ h'.live = lost + h.live ∧
      lost.map Prod.snd = (8 * N) ::ₘ Multiset.replicate (oks.length + 1) (4 * (L * L)) := by
  obtain ⟨x, h1, e1, w1, l1⟩ := hmmInit_ok N L w
  have hb : x.own N L + blk x.p0 (8 * N) ≤ h1.live := by rw [l1]; exact Multiset.le_add_right _ _
  obtain ⟨lost, h2, e2, w2, l2, s2⟩ := hmmTrain_ok nb T oks w1 hb
  obtain ⟨p, h3, e3, w3, l3⟩ := viterbi_ok nb T w2 (le_grow hb l2)
  obtain ⟨h4, e4, w4, l4⟩ := hmmClose_ok (x := x) (N := N) (L := L) (rest := blk x.p0 (8 * N) + (blk p (4 * (L * L)) + (lost + h.live))) w3 (by rw [l3, l2, l1]; abel)
  obtain ⟨a, h5, e5, w5, l5⟩ := malloc_ok w4 (8 * (T * N))
  obtain ⟨b, h6, e6, w6, l6⟩ := malloc_ok w5 (8 * 20)
  obtain ⟨h7, e7, w7, l7⟩ := clusterMelt_ok N T k w6
  obtain ⟨h8, e8, w8, l8⟩ := free_ok (p := a) (s := 8 * (T * N)) (rest := blk b (8 * 20) + (blk x.p0 (8 * N) + (blk p (4 * (L * L)) + (lost + h.live)))) w7
    (by rw [l7, l6, l5, l4]; abel)
  obtain ⟨h9, e9, w9, l9⟩ := free_ok w8 l8
  refine ⟨blk x.p0 (8 * N) + (blk p (4 * (L * L)) + lost), h9, ?_, w9, by rw [l9]; abel, ?_⟩
  · unfold clusterSegment
    exact step e1 (step e2 (step e3 (step e4 (step e5 (step (use_ok l5) (step e6 (step (use_ok l6) (step e7 (step e8 e9)))))))))
  · rw [Multiset.map_add, Multiset.map_add, s2, Multiset.map_singleton, Multiset.map_singleton, Multiset.singleton_add, Multiset.singleton_add, Multiset.replicate_succ]

theorem covcol_ok {m s base : Nat} {f : Nat → Nat} {h : Heap} (w : h.WF) (hb : Rows.own m s base f ≤ h.live) :
    ∃ h', covcol m (Rows.of m base f) h = some ((), h') ∧ h'.WF ∧ h'.live = h.live := by
  obtain ⟨a, h1, e1, w1, l1⟩ := malloc_ok w (8 * m)
  obtain ⟨h2, e2, w2, l2⟩ := free_ok w1 l1
  refine ⟨h2, ?_, w2, l2⟩
  unfold covcol
  exact step e1 (step (use_ok l1) (step (touchRows_ok (le_grow hb l1)) e2))

theorem pcaProject_ok (m : Nat) {h : Heap} (w : h.WF) : ∃ h', pcaProject m h = some ((), h') ∧ h'.WF ∧ h'.live = h.live := by
  obtain ⟨a, f, h1, e1, w1, l1⟩ := allocRows_ok m (8 * m) w
  have hb : Rows.own m (8 * m) a f ≤ h1.live := by rw [l1]; exact Multiset.le_add_right _ _
  obtain ⟨h2, e2, w2, l2⟩ := covcol_ok w1 hb
  obtain ⟨b, h3, e3, w3, l3⟩ := malloc_ok w2 (8 * m)
  obtain ⟨c, h4, e4, w4, l4⟩ := malloc_ok w3 (8 * m)
  obtain ⟨h5, e5, w5, l5⟩ := freeRows_ok (n := m) (s := 8 * m) (base := a) (f := f) (rest := blk b (8 * m) + (blk c (8 * m) + h.live)) w4 (by rw [l4, l3, l2, l1]; abel)
  obtain ⟨h6, e6, w6, l6⟩ := free_ok w5 l5
  obtain ⟨h7, e7, w7, l7⟩ := free_ok w6 l6
  refine ⟨h7, ?_, w7, l7⟩
  unfold pcaProject
  have hb2 : Rows.own m (8 * m) a f ≤ h2.live := by rw [l2]; exact hb
  have u : use b h4 = some ((), h4) := use_ok (p := b) (s := 8 * m) (rest := blk c (8 * m) + h2.live) (by rw [l4, l3]; abel)
  exact step e1 (step e2 (step e3 (step e4 (step (touchRows_ok (le_grow (le_grow hb2 l3) l4)) (step u (step (use_ok l4) (step e5 (step e6 e7))))))))

end QM.Heap
