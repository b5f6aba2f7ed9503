import Verif.Random.Spec

namespace QM.Random

open Segment

variable {α β S : Type}

/-- The code with the numbers `v i, v (i + 1), …`: the result and how far it has got. -/
def Code.feed (v : Nat → Nat) : Code α → Nat → Option α × Nat
  | .done r, i => (r, i)
  | .srand _ c, i => c.feed v i
  | .srandTime c, i => c.feed v i
  | .rand k, i => (k (v i)).feed v (i + 1)

/-- The numbers from `n` on. -/
def shift (v : Nat → Nat) (n : Nat) : Nat → Nat := fun i => v (n + i)

theorem shift_shift (v : Nat → Nat) (m n : Nat) : shift (shift v m) n = shift v (m + n) := by
  funext i; simp [shift, Nat.add_assoc]

/-- The code computes `g` of the numbers and draws `n` of them if all goes well. -/
def Draws (c : Code α) (n : Nat) (g : (Nat → Nat) → Option α) : Prop :=
  ∀ v i, (c.feed v i).1 = g (shift v i) ∧ ((c.feed v i).1.isSome → (c.feed v i).2 = i + n)

theorem Draws.done (r : Option α) : Draws (.done r) 0 fun _ => r := fun _ _ => ⟨rfl, fun _ => rfl⟩

theorem Draws.srandTime {c : Code α} {n : Nat} {g : (Nat → Nat) → Option α} (h : Draws c n g) : Draws (.srandTime c) n g := fun v i => h v i

theorem Draws.rand {k : Nat → Code α} {n : Nat} {g : Nat → (Nat → Nat) → Option α} (h : ∀ x, Draws (k x) n (g x)) :
    Draws (.rand k) (1 + n) fun v => g (v 0) (shift v 1) := by
  intro v i
  obtain ⟨h1, h2⟩ := h (v i) v (i + 1)
  refine ⟨?_, fun hs => ?_⟩
  · simp only [Code.feed, h1, shift_shift]
    rfl
  · simp only [Code.feed] at hs ⊢
    rw [h2 hs]; omega

theorem feed_bind (v : Nat → Nat) (f : α → Code β) (c : Code α) (i : Nat) :
    (c.bind f).feed v i = match c.feed v i with
      | (none, j) => (none, j)
      | (some a, j) => (f a).feed v j := by
  induction c generalizing i with
  | done r => cases r <;> rfl
  | srand n c ih => exact ih i
  | srandTime c ih => exact ih i
  | rand k ih => exact ih _ _

theorem Draws.bind {c : Code α} {f : α → Code β} {n m : Nat} {g : (Nat → Nat) → Option α} {h : α → (Nat → Nat) → Option β}
    (h1 : Draws c n g) (h2 : ∀ a, Draws (f a) m (h a)) :
    Draws (c.bind f) (n + m) fun v => (g v).bind fun a => h a (shift v n) := by
  intro v i
  obtain ⟨e1, e2⟩ := h1 v i
  rw [feed_bind]
  generalize hr : c.feed v i = r at *
  obtain ⟨o, j⟩ := r
  cases o with
  | none =>
    simp only at e1
    exact ⟨by simp only [← e1]; rfl, fun hs => by simp at hs⟩
  | some a =>
    simp only [Option.isSome_some, forall_const] at e1 e2
    subst e2
    obtain ⟨e3, e4⟩ := h2 a v (i + n)
    refine ⟨?_, fun hs => ?_⟩
    · simp only [← e1, e3, shift_shift]
      rfl
    · simp only at hs ⊢
      rw [e4 hs]; omega

/-- Code that draws nothing first. -/
theorem Draws.first {r : Option α} {f : α → Code β} {m : Nat} {h : α → (Nat → Nat) → Option β} (h2 : ∀ a, Draws (f a) m (h a)) :
    Draws ((Code.done r).bind f) m fun v => r.bind fun a => h a v := by
  have := (Draws.done r).bind h2
  simp only [Nat.zero_add] at this
  convert this using 4
  funext i; simp [shift]

/-- Code that draws nothing last. -/
theorem Draws.last {c : Code α} {n : Nat} {g : (Nat → Nat) → Option α} {f : α → Option β} (h1 : Draws c n g) :
    Draws (c.bind fun a => .done (f a)) n fun v => (g v).bind f := h1.bind fun a => Draws.done (f a)

theorem Draws.loop {f : Nat → α → Code α} {m : Nat} {h : Nat → α → (Nat → Nat) → Option α} (hf : ∀ i a, Draws (f i a) m (h i a)) :
    ∀ (n : Nat) (s : α), Draws (Code.loop n f s) (n * m) fun v => QM.loop n (fun i a => h i a (shift v (i * m))) s := by
  intro n s
  induction n with
  | zero => rw [Nat.zero_mul]; exact Draws.done _
  | succ n ih =>
    rw [Nat.succ_mul]
    exact ih.bind (hf n)

theorem Draws.eq {c : Code α} {n n' : Nat} {g g' : (Nat → Nat) → Option α} (h : Draws c n g) (hn : n = n') (hg : ∀ v, g v = g' v) : Draws c n' g' := by
  subst hn
  obtain rfl : g = g' := funext hg
  exact h

theorem startMeans_draws (top N L : Nat) (gm : List ℝ) (cov mu : List (List ℝ)) :
    Draws (startMeans top N L gm cov mu) (N * L) fun v => Hmm.startMeans N L (fun i d => 1 / 2 * (v (i * L + d) : ℝ) / top - 1 / 4) gm cov mu := by
  unfold startMeans
  refine (Draws.loop (fun i mu => Draws.loop (fun d mu => Draws.rand fun v => Draws.done _) L mu) N mu).eq (by ring) fun v => ?_
  unfold Hmm.startMeans
  simp only [shift_shift, Nat.add_zero, Nat.mul_one]
  rfl

theorem transitions_draws (top N i : Nat) (a : List (List ℝ)) :
    Draws (transitions top N i a) N fun v => loop N (fun j (st : List (List ℝ) × ℝ) => do
      let a ← wr2 st.1 i j (1 + (v j : ℝ) / top)
      pure (a, st.2 + (1 + (v j : ℝ) / top))) (a, 0) := by
  unfold transitions
  refine (Draws.loop (fun j st => Draws.rand fun v => Draws.done _) N (a, 0)).eq (by ring) fun v => ?_
  simp only [shift, Nat.add_zero, Nat.mul_one]

theorem initProbs_draws (top N : Nat) (p0 : List ℝ) (a : List (List ℝ)) :
    Draws (initProbs top N p0 a) (N * (N + 1)) fun v =>
      Hmm.initProbs N (fun i => (v (i * (N + 1)) : ℝ) / top) (fun i j => (v (i * (N + 1) + (1 + j)) : ℝ) / top) p0 a := by
  unfold initProbs
  refine (Draws.last (Draws.loop (fun i st => Draws.rand fun v => Draws.first fun p => Draws.last (transitions_draws top N i st.1.2)) N ((p0, a), (0 : ℝ)))).eq
    (by rw [Nat.add_comm 1 N]) fun v => ?_
  unfold Hmm.initProbs
  simp only [shift, Nat.add_zero, Nat.add_comm 1 N]
  rfl

theorem hmmInit_draws (top N T L : Nat) (x : List (List ℝ)) (p0 : List ℝ) (a mu cov : List (List ℝ)) (gm : List ℝ) :
    Draws (hmmInit top N T L x p0 a mu cov gm) (N * L + N * (N + 1)) fun v =>
      Hmm.hmmInit N T L x (randOf top N L v).mean (randOf top N L v).init (randOf top N L v).trans p0 a mu cov gm := by
  unfold hmmInit
  refine (Draws.srandTime (Draws.first fun gm => Draws.first fun cov => (startMeans_draws top N L gm cov mu).bind fun mu =>
    Draws.last (initProbs_draws top N p0 a))).eq rfl fun v => ?_
  rfl

theorem initCluster_draws {K : Type} (A : Arith K) (m : Nat) (row : List K) :
    Draws (initCluster A m row) m fun v => Segment.initCluster A m (fun j => (v j : Int)) row := by
  unfold initCluster
  refine (Draws.last (Draws.loop (fun j s => Draws.rand fun v => Draws.done _) m (row, A.ofInt 0))).eq (by ring) fun v => ?_
  simp only [shift, Nat.add_zero, Nat.mul_one]
  rfl

theorem clusterMelt_draws {K : Type} (A : Arith K) (h : List K) (m n : Nat) (Bsched : List K) (t k : Nat) (l : Int) (s : Melt K) :
    Draws (clusterMelt A h m n Bsched t k l s) (k * m) fun v => Segment.clusterMelt A h m n Bsched t k l (fun i j => (v (i * m + j) : Int)) s := by
  unfold clusterMelt
  refine (Draws.last (Draws.loop (fun i cl => Draws.first fun row => Draws.last (initCluster_draws A m row)) k s.cl)).eq rfl fun v => ?_
  rfl

variable (inv : List (List ℝ) → List (List ℝ) × ℝ) (pca : List (List ℝ) → Nat → Nat → Option (List (List ℝ))) (top : Nat)

theorem clusterSegment_draws (q : List Nat) (x : List (List ℝ)) (T L N hlen k : Nat) (limit : Int) (w : CWork) :
    Draws (clusterSegment inv top q x T L N hlen k limit w) (drawn N L k) fun v =>
      Segment.clusterSegment inv (randOf top N L v) q x T L N hlen k limit w := by
  unfold clusterSegment
  refine (Draws.first fun x => (hmmInit_draws top N T L x w.p0 w.a w.mu w.cov w.gm).bind fun m => Draws.first fun m => Draws.first fun q =>
    Draws.first fun h => Draws.first fun b => Draws.last (clusterMelt_draws realArith h N T b 20 k limit _)).eq rfl fun v => ?_
  simp only [shift, Nat.add_assoc]
  rfl

/-- How many numbers `segment` draws. -/
def drawnBy (s : Segmenter α) : Nat := if s.features.length < s.hlen then 0 else drawn s.states (width s) s.nclusters

theorem segment_draws (w : SWork) (s : Segmenter α) :
    Draws (segment inv pca top w s) (drawnBy s) fun v => Segment.segment inv pca (randOf top s.states (width s) v) w s := by
  unfold segment drawnBy Segment.segment
  by_cases h : s.features.length < s.hlen
  · simp only [if_pos h]
    exact Draws.done _
  · simp only [if_neg h]
    refine Draws.last ?_
    unfold labels Segment.labels
    cases h0 : s.features[0]? with
    | none => exact fun v i => ⟨rfl, fun hs => by simp [Code.bind, Code.feed] at hs⟩
    | some r0 =>
      have hw : (s.features.headD []).length = r0.length := by
        cases hf : s.features with
        | nil => rw [hf] at h0; cases h0
        | cons a l => rw [hf] at h0; cases h0; rfl
      simp only [Code.bind]
      refine Draws.first fun arr => ?_
      by_cases hty : s.ftype = .unknown ∨ s.ftype = .mfcc
      · simp only [if_pos hty]
        have : width s = r0.length := by
          unfold width
          rcases hty with e | e <;> rw [e] <;> exact hw
        rw [this]
        exact clusterSegment_draws inv top w.q (narrow r0.length arr) s.features.length r0.length s.states s.hlen s.nclusters s.limit w.c
      · simp only [if_neg hty]
        unfold constqSegment Segment.constqSegment width
        cases e : s.ftype with
        | unknown => exact absurd (Or.inl e) hty
        | mfcc => exact absurd (Or.inr e) hty
        | constq => exact Draws.first fun x => Draws.first fun x => Draws.first fun x => clusterSegment_draws inv top _ _ _ _ _ _ _ _ _
        | chroma => exact Draws.first fun x => clusterSegment_draws inv top _ _ _ _ _ _ _ _ _

/-! ## The code alone in the program -/

/-- The code does not call `srand`. -/
def Plain : Code α → Prop
  | .done _ => True
  | .srand _ _ => False
  | .srandTime _ => False
  | .rand k => ∀ v, Plain (k v)

/-- The code calls `srand(time(0))` before anything else, if it gets so far. -/
def Seeds : Code α → Prop
  | .done none => True
  | .srandTime c => Plain c
  | _ => False

theorem Plain.done (r : Option α) : Plain (.done r) := trivial

theorem Plain.rand {k : Nat → Code α} (h : ∀ v, Plain (k v)) : Plain (.rand k) := h

theorem Plain.bind {c : Code α} {f : α → Code β} (h1 : Plain c) (h2 : ∀ a, Plain (f a)) : Plain (c.bind f) := by
  induction c with
  | done r => cases r with
    | none => exact trivial
    | some a => exact h2 a
  | srand n c ih => exact h1.elim
  | srandTime c ih => exact h1.elim
  | rand k ih => exact fun v => ih v (h1 v)

theorem Plain.first {r : Option α} {f : α → Code β} (h2 : ∀ a, Plain (f a)) : Plain ((Code.done r).bind f) := Plain.bind trivial h2

theorem Plain.loop {f : Nat → α → Code α} (hf : ∀ i a, Plain (f i a)) : ∀ (n : Nat) (s : α), Plain (Code.loop n f s)
  | 0, _ => trivial
  | n + 1, s => (Plain.loop hf n s).bind (hf n)

theorem Seeds.bind {c : Code α} {f : α → Code β} (h1 : Seeds c) (h2 : ∀ a, Plain (f a)) : Seeds (c.bind f) := by
  cases c with
  | done r => cases r with
    | none => exact trivial
    | some a => exact h1.elim
  | srand n c => exact h1.elim
  | srandTime c => exact Plain.bind (c := c) h1 h2
  | rand k => exact h1.elim

theorem Seeds.first {r : Option α} {f : α → Code β} (h2 : ∀ a, Seeds (f a)) : Seeds ((Code.done r).bind f) := by
  cases r with
  | none => exact trivial
  | some a => exact h2 a

theorem startMeans_plain (N L : Nat) (gm : List ℝ) (cov mu : List (List ℝ)) : Plain (startMeans top N L gm cov mu) :=
  Plain.loop (fun _ mu => Plain.loop (fun _ _ => Plain.rand fun _ => Plain.done _) L mu) N mu

theorem initProbs_plain (N : Nat) (p0 : List ℝ) (a : List (List ℝ)) : Plain (initProbs top N p0 a) :=
  (Plain.loop (fun _ _ => Plain.rand fun _ => Plain.first fun _ => (Plain.loop (fun _ _ => Plain.rand fun _ => Plain.done _) N _).bind fun _ => Plain.done _) N _).bind fun _ => Plain.done _

theorem hmmInit_seeds (N T L : Nat) (x : List (List ℝ)) (p0 : List ℝ) (a mu cov : List (List ℝ)) (gm : List ℝ) :
    Seeds (hmmInit top N T L x p0 a mu cov gm) :=
  show Plain _ from Plain.first fun _ => Plain.first fun _ => (startMeans_plain top N L _ _ mu).bind fun _ =>
    (initProbs_plain top N p0 a).bind fun _ => Plain.done _

theorem clusterMelt_plain {K : Type} (A : Arith K) (h : List K) (m n : Nat) (Bsched : List K) (t k : Nat) (l : Int) (s : Melt K) :
    Plain (clusterMelt A h m n Bsched t k l s) :=
  (Plain.loop (fun _ _ => Plain.first fun _ => ((Plain.loop (fun _ _ => Plain.rand fun _ => Plain.done _) m _).bind fun _ => Plain.done _).bind fun _ => Plain.done _) k s.cl).bind
    fun _ => Plain.done _

theorem clusterSegment_seeds (q : List Nat) (x : List (List ℝ)) (T L N hlen k : Nat) (limit : Int) (w : CWork) :
    Seeds (clusterSegment inv top q x T L N hlen k limit w) :=
  Seeds.first fun x => (hmmInit_seeds top N T L x _ _ _ _ _).bind fun _ => Plain.first fun _ => Plain.first fun _ => Plain.first fun _ =>
    Plain.first fun _ => (clusterMelt_plain realArith _ _ _ _ _ _ _ _).bind fun _ => Plain.done _

theorem segment_seeds (w : SWork) (s : Segmenter α) (h : ¬ s.features.length < s.hlen) : Seeds (segment inv pca top w s) := by
  unfold segment
  rw [if_neg h]
  refine Seeds.bind ?_ fun _ => Plain.done _
  refine Seeds.first fun r0 => Seeds.first fun arr => ?_
  by_cases hty : s.ftype = .unknown ∨ s.ftype = .mfcc
  · rw [if_pos hty]
    exact clusterSegment_seeds inv top _ _ _ _ _ _ _ _ _
  · rw [if_neg hty]
    unfold constqSegment
    cases e : s.ftype with
    | unknown => exact absurd (Or.inl e) hty
    | mfcc => exact absurd (Or.inr e) hty
    | constq => exact Seeds.first fun x => Seeds.first fun x => Seeds.first fun x => clusterSegment_seeds inv top _ _ _ _ _ _ _ _ _
    | chroma => exact Seeds.first fun x => clusterSegment_seeds inv top _ _ _ _ _ _ _ _ _

variable {inv pca top}

theorem run_plain (G : Generator S) (now : Nat) (g : S) (c : Code α) (h : Plain c) (i : Nat) :
    c.run G now (G.after g i) = ((c.feed (G.value g) i).1, G.after g (c.feed (G.value g) i).2) := by
  induction c generalizing i with
  | done r => rfl
  | srand n c ih => exact h.elim
  | srandTime c ih => exact h.elim
  | rand k ih => exact ih _ (h _) (i + 1)

theorem run_seeds (G : Generator S) (now : Nat) (g : S) (c : Code α) (h : Seeds c) :
    (c.run G now g).1 = (c.feed (G.value (G.seed now)) 0).1 ∧
      ((c.run G now g).1.isSome → (c.run G now g).2 = G.after (G.seed now) (c.feed (G.value (G.seed now)) 0).2) := by
  cases c with
  | done r => cases r with
    | none => exact ⟨rfl, fun hs => by cases hs⟩
    | some a => exact h.elim
  | srand n c => exact h.elim
  | srandTime c =>
    have := run_plain G now (G.seed now) c h 0
    refine ⟨congrArg Prod.fst this, fun _ => congrArg Prod.snd this⟩
  | rand k => exact h.elim

theorem run_bind (G : Generator S) (now : Nat) (f : α → Code β) (c : Code α) (g : S) :
    (c.bind f).run G now g = match c.run G now g with
      | (none, g') => (none, g')
      | (some a, g') => (f a).run G now g' := by
  induction c generalizing g with
  | done r => cases r <;> rfl
  | srand n c ih => exact ih _
  | srandTime c ih => exact ih _
  | rand k ih => exact ih _ _

/-! ## Threads -/

/-- The code `c` has got to `d` with numbers that are at most `top`. -/
inductive Gets (top : Nat) : Code α → Code α → Prop where
  | here (c) : Gets top c c
  | srand {c n d} : Gets top c (.srand n d) → Gets top c d
  | srandTime {c d} : Gets top c (.srandTime d) → Gets top c d
  | rand {c k} (v) : v ≤ top → Gets top c (.rand k) → Gets top c (k v)

theorem Gets.step {G : Generator S} (hG : G.Valid) {c : Code α} {s : State S α} {i : Nat} (h : Gets G.top c (s.code i)) (j now : Nat) :
    Gets G.top c ((s.step G j now).code i) := by
  unfold State.step
  split
  · exact h
  all_goals
    rename_i e
    unfold State.become
    dsimp only
    by_cases hij : i = j
    · subst hij
      rw [if_pos rfl]
      rw [e] at h
      first
        | exact h.srand
        | exact h.srandTime
        | exact h.rand _ (hG.next _)
    · rw [if_neg hij]; exact h

theorem Gets.steps {G : Generator S} (hG : G.Valid) {c : Code α} {i : Nat} (l : List (Nat × Nat)) {s : State S α} (h : Gets G.top c (s.code i)) :
    Gets G.top c ((State.steps G l s).code i) := by
  induction l generalizing s with
  | nil => exact h
  | cons a l ih => exact ih (h.step hG a.1 a.2)

/-- What code that has got somewhere has still to do is what it does on suitable numbers. -/
theorem Gets.feed {c d : Code α} (h : Gets top c d) :
    ∃ (v : Nat → Nat) (n : Nat), (∀ i, v i ≤ top) ∧ ∀ u : Nat → Nat, (∀ i, i < n → u i = v i) → c.feed u 0 = d.feed u n := by
  induction h with
  | here => exact ⟨fun _ => 0, 0, fun _ => Nat.zero_le _, fun _ _ => rfl⟩
  | srand _ ih => exact ih
  | srandTime _ ih => exact ih
  | rand x hx _ ih =>
    obtain ⟨v, n, h1, h2⟩ := ih
    refine ⟨fun i => if i = n then x else v i, n + 1, fun i => ?_, fun u hu => ?_⟩
    · dsimp only; split
      · exact hx
      · exact h1 i
    · rw [h2 u fun i hi => by rw [hu i (by omega)]; exact if_neg (by omega)]
      have : u n = x := by rw [hu n (by omega)]; exact if_pos rfl
      simp only [Code.feed, this]

theorem Gets.result {c : Code α} {r : Option α} (h : Gets top c (.done r)) :
    ∃ (v : Nat → Nat) (n : Nat), (∀ i, v i ≤ top) ∧ c.feed v 0 = (r, n) := by
  obtain ⟨v, n, h1, h2⟩ := h.feed
  exact ⟨v, n, h1, h2 v fun _ _ => rfl⟩

/-- A thread that goes on alone with code that does not call `srand`. -/
theorem steps_alone (G : Generator S) (now : Nat) (g : S) (j : Nat) (c : Code α) (h : Plain c) (i : Nat) (s : State S α) (hc : s.code j = c)
    (hg : s.gen = G.after g i) :
    ∃ n, (State.steps G (List.replicate n (j, now)) s).code j = .done (c.feed (G.value g) i).1 ∧
      (State.steps G (List.replicate n (j, now)) s).gen = G.after g (c.feed (G.value g) i).2 ∧
      ∀ m, m ≠ j → (State.steps G (List.replicate n (j, now)) s).code m = s.code m := by
  induction c generalizing i s with
  | done r => exact ⟨0, hc, hg, fun _ _ => rfl⟩
  | srand n c ih => exact h.elim
  | srandTime c ih => exact h.elim
  | rand k ih =>
    have e : s.step G j now = s.become j (G.next s.gen).2 (k (G.next s.gen).1) := by
      unfold State.step; rw [hc]
    obtain ⟨n, h1, h2, h3⟩ := ih (G.next s.gen).1 (h _) (i + 1) (s.step G j now) (by rw [e]; exact if_pos rfl) (by rw [e, hg]; rfl)
    refine ⟨n + 1, ?_, ?_, fun m hm => ?_⟩
    · rw [List.replicate_succ, State.steps, h1, hg]; rfl
    · rw [List.replicate_succ, State.steps, h2, hg]; rfl
    · rw [List.replicate_succ, State.steps, h3 m hm, e]
      exact if_neg hm

theorem steps_append (G : Generator S) (l m : List (Nat × Nat)) (s : State S α) : State.steps G (l ++ m) s = State.steps G m (State.steps G l s) := by
  induction l generalizing s with
  | nil => rfl
  | cons a l ih => exact ih _

theorem randOf_valid {N L : Nat} {v : Nat → Nat} (ht : 0 < top) (hv : ∀ i, v i ≤ top) : (randOf top N L v).Valid := by
  have ht' : (0 : ℝ) < top := by exact_mod_cast ht
  refine ⟨fun i d => ?_, fun i => div_nonneg (Nat.cast_nonneg _) (Nat.cast_nonneg _), fun i j => div_nonneg (Nat.cast_nonneg _) (Nat.cast_nonneg _)⟩
  have h1 : (v (i * L + d) : ℝ) ≤ top := by exact_mod_cast hv _
  have h2 : (v (i * L + d) : ℝ) / top ≤ 1 := (div_le_one ht').2 h1
  have h3 : 0 ≤ (v (i * L + d) : ℝ) / top := div_nonneg (Nat.cast_nonneg _) (Nat.cast_nonneg _)
  simp only [randOf]
  rw [mul_div_assoc, abs_le]
  constructor <;> linarith

end QM.Random
