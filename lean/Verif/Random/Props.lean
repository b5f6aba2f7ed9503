import Verif.Random.Lemmas

namespace QM.Random

open Segment

variable {α S γ : Type} {G : Generator S} {inv : List (List ℝ) → List (List ℝ) × ℝ} {pca : List (List ℝ) → Nat → Nat → Option (List (List ℝ))}
  {w : SWork} {s : Segmenter α}

/-- **C115** A segmentation that has the program for itself: whatever state the generator is in, the result is the one with the numbers that
the generator gives after it is seeded with the current second, in the order of the calls. Afterwards the generator is the one seeded with
the second, after as many numbers as were drawn. -/
theorem C115_alone (now : Nat) (g : S) (h : s.hlen ≤ s.features.length) :
    ((segment inv pca G.top w s).run G now g).1 = Segment.segment inv pca (randOf G.top s.states (width s) (G.value (G.seed now))) w s ∧
      (((segment inv pca G.top w s).run G now g).1.isSome →
        ((segment inv pca G.top w s).run G now g).2 = G.after (G.seed now) (drawn s.states (width s) s.nclusters)) := by
  have hl : ¬ s.features.length < s.hlen := by omega
  obtain ⟨h1, h2⟩ := run_seeds G now g _ (segment_seeds inv pca G.top w s hl)
  obtain ⟨h3, h4⟩ := segment_draws inv pca G.top w s (G.value (G.seed now)) 0
  have e : shift (G.value (G.seed now)) 0 = G.value (G.seed now) := by funext i; simp [shift]
  rw [e] at h3
  refine ⟨h1.trans h3, fun hs => ?_⟩
  rw [h2 hs, h4 (by rw [← h1]; exact hs), drawnBy, if_neg hl, Nat.zero_add]

/-- **C115** Two segmentations of the same features within a second give the same, whatever the program does with the generator in between. -/
theorem C115_same_second (now : Nat) (g g' : S) (h : s.hlen ≤ s.features.length) :
    ((segment inv pca G.top w s).run G now g).1 = ((segment inv pca G.top w s).run G now g').1 := by
  rw [(C115_alone now g h).1, (C115_alone now g' h).1]

/-- **C115** With fewer features than the histogram is long the generator is left alone. -/
theorem C115_too_few (now : Nat) (g : S) (h : s.features.length < s.hlen) :
    (segment inv pca G.top w s).run G now g = (some { s with analysis := none }, g) := by
  unfold segment
  rw [if_pos h]
  rfl

/-- **C115** What a program has done with the generator before a segmentation that succeeds, and in particular the seed that it has chosen, has
no influence on anything it does afterwards. -/
theorem C115_forgets_violation (now : Nat) (g : S) (before before' : Code Unit) (rest : Segmenter α → Code γ) (h : s.hlen ≤ s.features.length)
    (hb : (before.run G now g).1 = some ()) (hb' : (before'.run G now g).1 = some ())
    (hok : ((segment inv pca G.top w s).run G now g).1.isSome) :
    ((before.bind fun _ => segment inv pca G.top w s).bind rest).run G now g =
      ((before'.bind fun _ => segment inv pca G.top w s).bind rest).run G now g := by
  have key : ∀ g', (segment inv pca G.top w s).run G now g' = (segment inv pca G.top w s).run G now g := by
    intro g'
    have h1 := C115_same_second (G := G) (inv := inv) (pca := pca) (w := w) now g' g h
    refine Prod.ext h1 ?_
    rw [(C115_alone now g' h).2 (by rw [h1]; exact hok), (C115_alone now g h).2 hok]
  have e : ∀ b : Code Unit, (b.run G now g).1 = some () →
      (b.bind fun _ => segment inv pca G.top w s).run G now g = (segment inv pca G.top w s).run G now g := by
    intro b hb
    rw [run_bind]
    generalize hr : b.run G now g = r at *
    obtain ⟨o, g'⟩ := r
    cases hb
    exact key g'
  rw [run_bind _ _ rest, run_bind _ _ rest, e before hb, e before' hb']

/-- **C115** Threads: whatever other threads do with the generator and however the steps are interleaved, a segmentation gives the result for
some numbers from 0 to `RAND_MAX`. -/
theorem C115_threads (hG : G.Valid) (start : State S (Segmenter α)) (schedule : List (Nat × Nat)) (i : Nat) (r : Option (Segmenter α))
    (hs : start.code i = segment inv pca G.top w s) (hr : (State.steps G schedule start).code i = .done r) :
    ∃ v : Nat → Nat, (∀ n, v n ≤ G.top) ∧ r = Segment.segment inv pca (randOf G.top s.states (width s) v) w s := by
  have h : Gets G.top (segment inv pca G.top w s) ((State.steps G schedule start).code i) := Gets.steps hG schedule (by rw [hs]; exact Gets.here _)
  rw [hr] at h
  obtain ⟨v, n, h1, h2⟩ := h.result
  refine ⟨v, h1, ?_⟩
  have h3 := (segment_draws inv pca G.top w s v 0).1
  have e : shift v 0 = v := by funext i; simp [shift]
  rw [h2, e] at h3
  exact h3

/-- **C115** So every segmentation that C68 speaks of succeeds among other threads as well. -/
theorem C115_threads_given {L : Nat} (hG : G.Valid) (start : State S (Segmenter α)) (schedule : List (Nat × Nat)) (i : Nat) (r : Option (Segmenter α))
    (hs : start.code i = segment inv pca G.top w s) (hr : (State.steps G schedule start).code i = .done r)
    (hty : s.ftype = .unknown) (hn : 2 ≤ s.features.length) (hh : s.hlen ≤ s.features.length)
    (hf : ∀ r ∈ s.features, r.length = L) (hN : 0 < s.states) (hk : 1 ≤ s.nclusters) (hhop : 0 < s.hop) (hinv : Inverts L inv)
    (ha : Shape2 s.features.length L w.arr) (hq : w.q.length = s.features.length)
    (hw : CSizes s.features.length L s.states s.nclusters w.c) :
    ∃ s', r = some s' ∧ Segmented s s' := by
  obtain ⟨v, h1, h2⟩ := C115_threads hG start schedule i r hs hr
  obtain ⟨s', h3, h4⟩ := C68_given (pca := pca) hty hn hh hf hN hk hhop hinv (randOf_valid (N := s.states) (L := width s)
    (lt_of_lt_of_le (by norm_num) hG.top) h1) ha hq hw
  exact ⟨s', h2.trans h3, h4⟩

theorem example32_valid : example32.Valid := ⟨le_refl _, fun s => by
  show (s * 1103515245 + 12345) % 4294967296 / 65536 % 32768 ≤ 32767
  omega⟩

theorem Generator.Valid.pos (h : G.Valid) : 0 < G.top := Nat.lt_of_lt_of_le (Nat.succ_pos _) h.top

theorem Generator.Valid.value (h : G.Valid) (g : S) (n : Nat) : G.value g n ≤ G.top := h.next _

/-- The memory of the example. -/
noncomputable def demoWork : SWork := ⟨grid 5 2 7, List.replicate 5 7, [], work 5 2 3 2⟩

theorem demo_segments (now g : Nat) :
    ∃ s', (segment (fun _ => (grid 2 2 1, 1)) (fun x _ _ => some x) example32.top demoWork demoSegmenter).run example32 now g =
      (some s', example32.after (example32.seed now) 24) ∧ Segmented demoSegmenter s' := by
  have hh : demoSegmenter.hlen ≤ demoSegmenter.features.length := by simp [demoSegmenter]
  obtain ⟨h1, h2⟩ := C115_alone (G := example32) (inv := fun _ => (grid 2 2 1, 1)) (pca := fun x _ _ => some x) (w := demoWork) now g hh
  obtain ⟨s', h3, h4⟩ := C68_given (inv := fun _ => (grid 2 2 1, 1)) (pca := fun x _ _ => some x)
    (rnd := randOf example32.top demoSegmenter.states (width demoSegmenter) (example32.value (example32.seed now))) (s := demoSegmenter) (sw := demoWork) rfl
    (by simp [demoSegmenter]) (by simp [demoSegmenter]) (L := 2) (by simp [demoSegmenter]) (by simp [demoSegmenter])
    (by simp [demoSegmenter]) (by simp [demoSegmenter]) (demo_inverts 2) (randOf_valid example32_valid.pos (example32_valid.value _))
    (grid_shape _ _ _) rfl (work_sizes 5 2 3 2)
  rw [h3] at h1
  have hd : drawn demoSegmenter.states (width demoSegmenter) demoSegmenter.nclusters = 24 := rfl
  rw [hd] at h2
  exact ⟨s', Prod.ext h1 (h2 (by rw [h1]; rfl)), h4⟩

/-- The program chooses its own seed, segments and then draws a number. -/
noncomputable def seeded (n : Nat) : Code Nat :=
  ((Code.srand n (.done (some ()))).bind fun _ => segment (fun _ => (grid 2 2 1, 1)) (fun x _ _ => some x) example32.top demoWork demoSegmenter).bind
    fun _ => .rand fun v => .done (some v)

theorem run_draw {now n m : Nat} {g x : S} {c : Code α} {a : α} (h : ∀ g, c.run G now g = (some a, G.after x m)) :
    ((((Code.srand n (.done (some ()))).bind fun _ => c).bind fun _ => .rand fun v => .done (some v)).run G now g).1 = some (G.value x m) := by
  rw [run_bind]
  simp only [Code.bind, Code.run, h]
  rfl

/-- **C115** A program that seeds the generator to get the same numbers in every run does not get them after a segmentation: with one and
the same seed the next number depends on the second in which the segmentation ran. -/
theorem C115_seed_violation (n g : Nat) : ((seeded n).run example32 0 g).1 = some 32096 ∧ ((seeded n).run example32 1 g).1 = some 11367 := by
  have key : ∀ now, ((seeded n).run example32 now g).1 = some (example32.value (example32.seed now) 24) := by
    intro now
    obtain ⟨s', h, _⟩ := demo_segments now 0
    refine run_draw (a := s') fun g => ?_
    obtain ⟨s2, h2, _⟩ := demo_segments now g
    have := C115_same_second (G := example32) (inv := fun _ => (grid 2 2 1, 1)) (pca := fun x _ _ => some x) (w := demoWork) (s := demoSegmenter) now g 0
      (by simp [demoSegmenter])
    rw [h, h2] at this
    rw [h2, Option.some.inj this]
  rw [key, key]
  decide +kernel

/-- `hmm_init` with one state and the two observations 0 and 1. -/
noncomputable def demoInit : Code Hmm.Params := hmmInit 32767 1 2 1 [[0], [1]] [7] [[7]] [[7]] [[7]] [7]

theorem demoInit_eq (v : Nat → Nat) : ∃ m, Hmm.hmmInit 1 2 1 [[0], [1]] (randOf 32767 1 1 v).mean (randOf 32767 1 1 v).init (randOf 32767 1 1 v).trans
    [7] [[7]] [[7]] [[7]] [7] = some m ∧ m.mu = [[1 / 2 + (1 / 2 * (v 0 : ℝ) / 32767 - 1 / 4) * Real.sqrt (1 / 2)]] := by
  refine ⟨_, by
    simp [Hmm.hmmInit, Hmm.globalMean, Hmm.globalCov, Hmm.scatter, Hmm.startMeans, Hmm.initProbs, loop, wr, wr2, rd2, randOf]
    rfl, ?_⟩
  norm_num

/-- **C115** Two threads that make the start model of the same observations in the same second can get different ones; one after the other
they get the same. -/
theorem C115_threads_violation (g : Nat) :
    (∃ m, ∀ g', (demoInit.run example32 0 g').1 = some m) ∧
    ∃ schedule : List (Nat × Nat), (∀ p ∈ schedule, p.2 = 0) ∧ ∃ m m' : Hmm.Params,
      (State.steps example32 schedule ⟨g, fun _ => demoInit⟩).code 0 = .done (some m) ∧
      (State.steps example32 schedule ⟨g, fun _ => demoInit⟩).code 1 = .done (some m') ∧ m.mu ≠ m'.mu := by
  have hd : Draws demoInit 3 _ := hmmInit_draws 32767 1 2 1 [[0], [1]] [7] [[7]] [[7]] [[7]] [7]
  have hsd : Seeds demoInit := hmmInit_seeds 32767 1 2 1 [[0], [1]] [7] [[7]] [[7]] [[7]] [7]
  obtain ⟨c, hc, hp⟩ : ∃ c, demoInit = .srandTime c ∧ Plain c := ⟨_, rfl, hsd⟩
  have hfeed : ∀ i, c.feed (example32.value 0) i = demoInit.feed (example32.value 0) i := fun i => by rw [hc]; rfl
  obtain ⟨m, hm, hm'⟩ := demoInit_eq (shift (example32.value 0) 0)
  obtain ⟨m2, hm2, hm2'⟩ := demoInit_eq (shift (example32.value 0) 3)
  obtain ⟨d1, d2⟩ := hd (example32.value 0) 0
  obtain ⟨d3, d4⟩ := hd (example32.value 0) 3
  rw [hm] at d1
  rw [hm2] at d3
  have d2 := d2 (by rw [d1]; rfl)
  refine ⟨⟨m, fun g' => by rw [(run_seeds example32 0 g' demoInit hsd).1]; exact d1⟩, ?_⟩
  let s0 : State Nat Hmm.Params := ⟨g, fun _ => demoInit⟩
  let s1 := State.steps example32 [(0, 0), (1, 0)] s0
  have e0 : s1.code 0 = c := by simp [s1, s0, State.steps, State.step, State.become, hc]
  have e1 : s1.code 1 = c := by simp [s1, s0, State.steps, State.step, State.become, hc]
  have eg : s1.gen = example32.after 0 0 := by simp [s1, s0, State.steps, State.step, State.become, hc, Generator.after, example32]
  obtain ⟨n, a1, a2, a3⟩ := steps_alone example32 0 0 0 c hp 0 s1 e0 eg
  rw [hfeed] at a1 a2
  rw [d1] at a1
  rw [d2] at a2
  obtain ⟨n', b1, b2, b3⟩ := steps_alone example32 0 0 1 c hp 3 _ ((a3 1 (by decide)).trans e1) a2
  rw [hfeed, d3] at b1
  refine ⟨[(0, 0), (1, 0)] ++ (List.replicate n (0, 0) ++ List.replicate n' (1, 0)), ?_, m, m2, ?_, ?_, ?_⟩
  · intro p hp
    simp only [List.mem_append, List.mem_cons, List.mem_replicate, List.not_mem_nil, or_false] at hp
    rcases hp with (rfl | rfl) | ⟨_, rfl⟩ | ⟨_, rfl⟩ <;> rfl
  · rw [steps_append, steps_append]
    exact (b3 0 (by decide)).trans a1
  · rw [steps_append, steps_append]
    exact b1
  · rw [hm', hm2']
    have v0 : shift (example32.value 0) 0 0 = 0 := by decide +kernel
    have v3 : shift (example32.value 0) 3 0 = 22117 := by decide +kernel
    rw [v0, v3]
    have hs : Real.sqrt (1 / 2) ≠ 0 := by positivity
    intro h
    simp only [List.cons.injEq, and_true, add_right_inj] at h
    have := mul_right_cancel₀ hs h
    norm_num at this

/-! ## The hypotheses can be met -/

/-- Two threads segment at once, a third seeds the generator and draws. -/
example (schedule : List (Nat × Nat)) (r : Option (Segmenter Unit))
    (hr : (State.steps example32 schedule ⟨1, fun i => if i < 2 then
      segment (fun _ => (grid 2 2 1, 1)) (fun x _ _ => some x) example32.top demoWork demoSegmenter
      else .srand 3 (.rand fun _ => .rand fun _ => .done none)⟩).code 1 = .done r) :
    ∃ s', r = some s' ∧ Segmented demoSegmenter s' :=
  C115_threads_given (pca := fun x _ _ => some x) (w := demoWork) (s := demoSegmenter) example32_valid _ schedule 1 r rfl hr rfl
    (by simp [demoSegmenter]) (by simp [demoSegmenter]) (L := 2) (by simp [demoSegmenter]) (by simp [demoSegmenter])
    (by simp [demoSegmenter]) (by simp [demoSegmenter]) (demo_inverts 2) (grid_shape _ _ _) rfl (work_sizes 5 2 3 2)

/-- Two programs with different seeds. -/
example (g : Nat) : (seeded 5).run example32 9 g = (seeded 6).run example32 9 g := by
  obtain ⟨s', h, _⟩ := demo_segments 9 g
  exact C115_forgets_violation 9 g _ _ _ (by simp [demoSegmenter]) rfl rfl (by rw [h]; rfl)

end QM.Random
