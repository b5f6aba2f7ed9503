import Verif.Heap.SegmenterObjectLemmas

/-!
# C112: the structural segmenter and its memory
-/

namespace QM.Heap

variable (so : Sizes)

/-! ### What is lost -/

/-- Sizes of the blocks of a `Decimator`. -/
def decSizes (n : Nat) : Multiset Nat := {so.obj .decimator, 8 * n}
/-- Sizes of the blocks of an `FFTReal`. -/
def fftSizes (n : Nat) : Multiset Nat := {so.obj .fftReal, so.obj .fftRealD, so.planr n, so.planr n, 16 * n}
/-- Sizes of the blocks of a `ConstantQ` with its kernel. -/
def cqSizes (K : Nat) : Multiset Nat := {so.obj .constantQ, 8 * (2 * K), so.obj .sparseKernel}
/-- Sizes of the blocks of an `MFCC` as the segmenter uses it: the object, its transform, the table of cosines with 20 rows, the 40 filters, the window and six arrays. -/
def mfccSizes : Multiset Nat :=
  {so.obj .mfcc} + fftSizes so 2048 + ({160} + Multiset.replicate 20 320) + ({320} + Multiset.replicate 40 16384) + {so.obj .window, 16384} + {160, 16384, 16384, 320, 8192}

/-- What a segmenter holds: the arguments it was created with, the feature type, the number of coefficients, the lengths of the features, and which objects there are, with their sizes. -/
structure SegState where
  args : SegArgs
  type : FType
  ncoeff : Nat
  feats : List Nat
  dec : Option Nat
  fft : Option Nat
  cq : Option Nat
  mfcc : Bool

/-- `initialise` overwrites the pointers to all objects that it makes. -/
def initNext (s : SegState) (a : InitArgs) : SegState × Multiset Nat := match s.type with
  | .unknown => (s, 0)
  | .mfcc => ({ s with dec := decKept a.dec s.dec, mfcc := true, ncoeff := 20 }, decLost a.dec (s.dec.elim 0 (decSizes so)) + if s.mfcc then mfccSizes so else 0)
  | _ => ({ s with dec := decKept a.dec s.dec, cq := some a.K, fft := some (2 * a.half), ncoeff := a.K },
      decLost a.dec (s.dec.elim 0 (decSizes so)) + (s.cq.elim 0 (cqSizes so) + s.fft.elim 0 (fftSizes so)))

/-- Whether features can be extracted. -/
def SegState.ready (s : SegState) : Bool := match s.type with
  | .unknown => false
  | .mfcc => s.mfcc
  | _ => s.cq.isSome

/-- What a segmenter loses: the objects that `initialise` overwrites, what the segmentation itself loses (C110), and an `MFCC` that is there at the end. -/
def segLosses : Losses SegArgs SegState SegOp where
  init a := (some ⟨a, a.type, 0, [], none, none, none, false⟩, 0)
  next op s := match op with
    | .initialise a => initNext so s a
    | .extract a => ({ s with feats := if s.ready ∧ a.enough then s.feats ++ [s.ncoeff] else s.feats }, 0)
    | .setFeatures f => ({ s with feats := f, type := .unknown }, 0)
    | .clear => ({ s with feats := [] }, 0)
    | .segment p =>
      if s.feats.length < s.args.hist then ({ s with cq := none, mfcc := false, dec := none }, 0)
      else ({ s with cq := none, mfcc := false, dec := none, feats := [] }, (segCall s.args s.type s.ncoeff s.feats p).elim 0 Call.lost)
  fin s := if s.mfcc then mfccSizes so else 0

/-! ### Proofs -/

/-- The state of a segmenter. -/
structure SegRel (s : SegState) (x : Seg) : Prop where
  good : x.Good
  args : s.args = x.args
  type : s.type = x.type
  ncoeff : s.ncoeff = x.ncoeff
  feats : s.feats = x.feats
  dec : s.dec = x.decimator.map Dec.n
  fft : s.fft = x.fft.map FftReal.n
  cq : s.cq = x.constq.map Cq.K
  mfcc : s.mfcc = x.mfcc.isSome

theorem szDec_eq (x : Option Dec) : szDec so x = (x.map Dec.n).elim 0 (decSizes so) := by
  cases x with
  | none => rfl
  | some x => simp [szDec, ownDec, Dec.own, Dec.parts, decSizes]

theorem szFft_eq (x : Option FftReal) : szFft so x = (x.map FftReal.n).elim 0 (fftSizes so) := by
  cases x with
  | none => rfl
  | some x =>
    simp only [szFft, ownFft, Option.map, Option.elim, FftReal.own, FftReal.parts, fftSizes, List.sum_cons, List.sum_nil, Multiset.map_add, Multiset.map_zero, Multiset.map_singleton, blk,
      Multiset.insert_eq_cons, ← Multiset.singleton_add]
    abel

theorem szCq_eq (x : Option Cq) (h : ∀ c ∈ x, c.sk.isSome) : szCq so x = (x.map Cq.K).elim 0 (cqSizes so) := by
  cases x with
  | none => rfl
  | some x =>
    obtain ⟨k, hk⟩ := Option.isSome_iff_exists.1 (h x rfl)
    simp only [szCq, ownCq, Option.map, Option.elim, Cq.own, Cq.parts, cqSizes, hk, ob, List.sum_cons, List.sum_nil, Multiset.map_add, Multiset.map_zero, Multiset.map_singleton, blk,
      Multiset.insert_eq_cons, ← Multiset.singleton_add]
    abel

theorem rows_sizes (n s : Nat) (r : Rows) : (r.blocks n s).map Prod.snd = {8 * n} + Multiset.replicate n s := by
  unfold Rows.blocks Rows.own
  rw [Multiset.map_add]
  congr 1
  induction n with
  | zero => rfl
  | succ n ih =>
    rw [Finset.sum_range_succ, Multiset.map_add, ih, Multiset.replicate_succ, ← Multiset.singleton_add, add_comm]
    rfl

theorem szMfcc_eq (x : Option Mfcc) (h : ∀ m ∈ x, m.Std) : szMfcc so x = if x.isSome then mfccSizes so else 0 := by
  cases x with
  | none => rfl
  | some x =>
    obtain ⟨g, e1, e2, e3, e4, e5, e6⟩ := h x rfl
    have hf : (x.fft.own so).map Prod.snd = fftSizes so 2048 := by
      rw [← e5]
      exact szFft_eq so (some x.fft)
    have hw : (x.window.own so).map Prod.snd = {so.obj .window, 16384} := by
      simp [Win.own, Win.parts, e6]
    simp only [szMfcc, ownMfcc, Option.elim, Mfcc.own, Mfcc.parts, List.sum_cons, List.sum_nil, Multiset.map_add, Multiset.map_singleton, Multiset.map_zero, rows_sizes, hf, hw, e1, e2, e3, e4,
      if_true, Option.isSome, mfccSizes, blk]
    simp only [Multiset.insert_eq_cons, ← Multiset.singleton_add, Nat.reduceAdd, Nat.reduceMul, Nat.reduceDiv]
    abel

theorem initNext_unknown {s : SegState} (a : InitArgs) (h : s.type = .unknown) : initNext so s a = (s, 0) := by
  unfold initNext
  split <;> simp_all

theorem initNext_mfcc {s : SegState} (a : InitArgs) (h : s.type = .mfcc) : initNext so s a =
    ({ s with dec := decKept a.dec s.dec, mfcc := true, ncoeff := 20 }, decLost a.dec (s.dec.elim 0 (decSizes so)) + if s.mfcc then mfccSizes so else 0) := by
  unfold initNext
  split <;> simp_all

theorem initNext_cq {s : SegState} (a : InitArgs) (h : s.type = .constq ∨ s.type = .chroma) : initNext so s a =
    ({ s with dec := decKept a.dec s.dec, cq := some a.K, fft := some (2 * a.half), ncoeff := a.K },
      decLost a.dec (s.dec.elim 0 (decSizes so)) + (s.cq.elim 0 (cqSizes so) + s.fft.elim 0 (fftSizes so))) := by
  unfold initNext
  split <;> simp_all

theorem seg_obeys (nb : Nat) : (segClass so nb).Obeys (fun a => 0 < a.hist) (segLosses so) := by
  refine ⟨Seg.own so, SegRel, fun a v => ?_, fun op s x r => ?_, fun s x r => ?_⟩
  · refine (Tri.call0P (Seg.new_ok so a v) fun x g => Tri.ret (G := fun o => match o with | none => False | some x => x.Good ∧ ∃ p, x = ⟨a, a.type, 0, [], p, none, none, none, none, none⟩)
      (Q := fun o => o.elim 0 (Seg.own so)) (a := some x) g (by simp)).post ?_
    intro o g
    cases o with
    | none => exact absurd g id
    | some x =>
      obtain ⟨gx, p, rfl⟩ := g
      exact ⟨⟨gx, rfl, rfl, rfl, rfl, rfl, rfl, rfl, rfl⟩, rfl⟩
  · obtain ⟨g, ra, rt, rn, rf, rd, rff, rc, rm⟩ := r
    have hu : ∀ (f : M Seg) (G : Seg → Prop) (L : Multiset Nat), Tri [x.own so] f G (Seg.own so) L → Tri [x.own so] (do use x.self; f) G (Seg.own so) L := by
      intro f G L h
      refine Tri.parts ?_
      unfold Seg.parts
      hrun
      refine Tri.same (Γ' := [x.own so]) (by simp [Seg.own, Seg.parts]) h
    cases op with
    | initialise a =>
      have hq : Tri [x.own so] (x.initConstQ so a) (SegRel ({ s with dec := decKept a.dec s.dec, cq := some a.K, fft := some (2 * a.half), ncoeff := a.K })) (Seg.own so)
          (decLost a.dec (s.dec.elim 0 (decSizes so)) + (s.cq.elim 0 (cqSizes so) + s.fft.elim 0 (fftSizes so))) := by
        refine Tri.sizes ?_ ((x.initConstQ_ok so a).post fun y ⟨c, f, e, ey, hK, hs, hf, he⟩ => ⟨?_, rfl⟩)
        · rw [szDec_eq, ← rd, szCq_eq so _ g.sk, szFft_eq, rc, rff]
        · subst ey
          refine ⟨⟨?_, fun _ => rfl, g.mfcc, g.hist⟩, ra, rt, rfl, rf, ?_, ?_, ?_, rm⟩
          · rintro c' hc'
            obtain rfl : c = c' := Option.some.inj hc'
            exact hs
          · dsimp only
            rw [he, rd]
          · simp [hf]
          · simp [hK]
      refine hu _ _ _ ?_
      show Tri _ _ (SegRel (initNext so s a).1) _ (initNext so s a).2
      cases ht : x.type with
      | unknown =>
        rw [initNext_unknown so a (rt.trans ht)]
        exact Tri.ret ⟨g, ra, rt, rn, rf, rd, rff, rc, rm⟩ (by simp)
      | constq =>
        rw [initNext_cq so a (.inl (rt.trans ht))]
        exact hq
      | chroma =>
        rw [initNext_cq so a (.inr (rt.trans ht))]
        exact hq
      | mfcc =>
        rw [initNext_mfcc so a (rt.trans ht)]
        refine Tri.sizes ?_ ((x.initMfcc_ok so a).post fun y ⟨m, e, ey, hm, he⟩ => ⟨?_, rfl⟩)
        · dsimp only
          rw [szDec_eq, ← rd, szMfcc_eq so _ g.mfcc, rm]
        · subst ey
          refine ⟨⟨g.sk, g.fft, ?_, g.hist⟩, ra, rt, rfl, rf, ?_, rff, rc, rfl⟩
          · rintro m' hm'
            obtain rfl : m = m' := Option.some.inj hm'
            exact hm
          · dsimp only
            rw [he, rd]
    | extract a =>
      refine hu _ _ _ ?_
      show Tri _ _ (SegRel ({ s with feats := if s.ready ∧ a.enough then s.feats ++ [s.ncoeff] else s.feats })) _ 0
      have hq : s.ready = x.constq.isSome → Tri [x.own so] (x.extractConstQ so a) (SegRel ({ s with feats := if s.ready ∧ a.enough then s.feats ++ [s.ncoeff] else s.feats })) (Seg.own so) 0 := by
        intro hr
        refine (x.extractConstQ_ok so g a).post fun y ⟨v, ey⟩ => ⟨?_, rfl⟩
        subst ey
        refine ⟨⟨g.sk, g.fft, g.mfcc, g.hist⟩, ra, rt, rn, ?_, rd, rff, rc, rm⟩
        dsimp only
        rw [hr, rf, rn]
      cases ht : x.type with
      | unknown =>
        have hr : s.ready = false := by rw [SegState.ready, rt, ht]
        refine Tri.ret ⟨g, ra, rt, rn, ?_, rd, rff, rc, rm⟩ (by simp)
        dsimp only
        rw [hr]
        simpa using rf
      | constq => exact hq (by rw [SegState.ready, rt, ht, rc, Option.isSome_map])
      | chroma => exact hq (by rw [SegState.ready, rt, ht, rc, Option.isSome_map])
      | mfcc =>
        have hr : s.ready = x.mfcc.isSome := by rw [SegState.ready, rt, ht, rm]
        refine (x.extractMfcc_ok so g a).post fun y ey => ⟨?_, rfl⟩
        subst ey
        refine ⟨⟨g.sk, g.fft, g.mfcc, g.hist⟩, ra, rt, rn, ?_, rd, rff, rc, rm⟩
        dsimp only
        rw [hr, rf, rn]
    | setFeatures f =>
      exact hu _ _ _ (Tri.ret ⟨⟨g.sk, g.fft, g.mfcc, g.hist⟩, ra, rfl, rn, rfl, rd, rff, rc, rm⟩ (by simp [Seg.own, Seg.parts]))
    | clear =>
      exact hu _ _ _ (Tri.ret ⟨⟨g.sk, g.fft, g.mfcc, g.hist⟩, ra, rt, rn, rfl, rd, rff, rc, rm⟩ (by simp [Seg.own, Seg.parts]))
    | segment p =>
      have hn : (segLosses so).next (.segment p) s = if s.feats.length < s.args.hist then ({ s with cq := none, mfcc := false, dec := none }, 0)
          else ({ s with cq := none, mfcc := false, dec := none, feats := [] }, (segCall s.args s.type s.ncoeff s.feats p).elim 0 Call.lost) := rfl
      rw [hn]
      have hs := x.segment_ok so g nb p
      rw [ra, rt, rn, rf]
      have hg : ∀ fs : List Nat, ({ x with constq := none, mfcc := none, decimator := none, feats := fs } : Seg).Good :=
        fun fs => ⟨fun c h => by simp at h, fun h => by simp at h, fun m h => by simp at h, g.hist⟩
      by_cases e : x.feats.length < x.args.hist
      · simp only [if_pos e] at hs ⊢
        refine hs.post fun y ey => ⟨?_, rfl⟩
        subst ey
        exact ⟨hg _, rfl, rfl, rfl, rfl, rfl, rff, rfl, rfl⟩
      · simp only [if_neg e] at hs ⊢
        refine hs.post fun y ey => ⟨?_, rfl⟩
        subst ey
        exact ⟨hg _, rfl, rfl, rfl, rfl, rfl, rff, rfl, rfl⟩
  · refine Tri.sizes ?_ (x.del_ok so)
    rw [szMfcc_eq so _ r.good.mfcc, ← r.mfcc]
    rfl

/-! ### Theorems -/

/-- **C112** In any life of a structural segmenter, with any sequence of its methods, no block is released twice or used after its release, blocks of others are left alone, and exactly the blocks of
`segLosses` are lost. The full claim would be that none is lost; it fails, see `C112_mfcc_violation` and `C112_again_violation`. -/
theorem C112_life_partial (nb : Nat) : (segClass so nb).Loses (fun a => 0 < a.hist) (segLosses so) := (seg_obeys so nb).loses

/-- Two recordings with the default parameters: the transform of the first initialisation is lost, and what each segmentation loses. -/
example (h : Heap) (w : h.WF) (i : InitArgs) (e : ExtractArgs) (ok : e.enough = true) :
    ∃ lost h', (segClass so 64).life ⟨.constq, 1, 40, 8⟩ [.initialise i, .extract e, .segment ⟨10, [true]⟩, .initialise i, .extract e, .segment ⟨10, [true]⟩] h = some ((), h') ∧ h'.WF ∧
      h'.live = lost + h.live ∧ lost.map Prod.snd = lostSizes 40 21 1 + (fftSizes so (2 * i.half) + lostSizes 40 21 1) := by
  have := C112_life_partial so 64 ⟨.constq, 1, 40, 8⟩ [.initialise i, .extract e, .segment ⟨10, [true]⟩, .initialise i, .extract e, .segment ⟨10, [true]⟩] h (by norm_num) w
  rcases i with ⟨_ | d, K, half, wl, tmps⟩ <;>
  · simpa [Losses.total, Losses.rest, segLosses, initNext, SegState.ready, ok, segCall, Call.lost, decKept, decLost] using this

/-- A method that neither initialises nor segments. -/
def SegOp.plain : SegOp → Prop
  | .initialise _ => False
  | .segment _ => False
  | _ => True

theorem rest_plain (ops : List SegOp) (hp : ∀ o ∈ ops, o.plain) (s : SegState) : (segLosses so).rest ops s = if s.mfcc then mfccSizes so else 0 := by
  induction ops generalizing s with
  | nil => rfl
  | cons o ops ih =>
    have h1 := hp o (by simp)
    have h2 : ∀ o ∈ ops, o.plain := fun o ho => hp o (by simp [ho])
    cases o with
    | initialise _ => exact absurd h1 id
    | segment _ => exact absurd h1 id
    | extract a => rw [Losses.rest, ih h2]; exact zero_add _
    | setFeatures f => rw [Losses.rest, ih h2]; exact zero_add _
    | clear => rw [Losses.rest, ih h2]; exact zero_add _

/-- **C112** A segmenter for constant-Q or chroma features that is initialised once and extracts any number of features gives back all its memory, if nothing is segmented. -/
theorem C112_clean (nb : Nat) (a : SegArgs) (ht : a.type ≠ .mfcc) (hh : 0 < a.hist) (i : InitArgs) (ops : List SegOp) (hp : ∀ o ∈ ops, o.plain) (h : Heap) (w : h.WF) :
    ∃ h', (segClass so nb).life a (.initialise i :: ops) h = some ((), h') ∧ h'.WF ∧ h'.live = h.live := by
  obtain ⟨lost, h', e, w', l, s⟩ := C112_life_partial so nb a (.initialise i :: ops) h hh w
  have hz : (segLosses so).total a (.initialise i :: ops) = 0 := by
    rw [Losses.total]
    simp only [segLosses]
    rw [← segLosses, Losses.rest, rest_plain so ops hp]
    rcases a with ⟨type, hist, states, bins⟩
    rcases i with ⟨_ | d, K, half, wl, tmps⟩ <;>
    cases type <;> simp_all [segLosses, initNext, decLost]
  rw [hz, Multiset.map_eq_zero] at s
  exact ⟨h', e, w', by rw [l, s, zero_add]⟩

example (h : Heap) (w : h.WF) : ∃ h', (segClass so 64).life ⟨.chroma, 15, 40, 12⟩ [.initialise ⟨some 26460, 60, 1024, fun _ => 5, []⟩, .extract ⟨true, 6615, 5, []⟩, .extract ⟨false, 0, 0, []⟩, .clear] h =
    some ((), h') ∧ h'.WF ∧ h'.live = h.live :=
  C112_clean so 64 ⟨.chroma, 15, 40, 12⟩ (by simp) (by norm_num) _ _ (by simp [SegOp.plain]) h w

/-- **C112** The full claim fails: a segmenter for cepstral coefficients that is initialised and destroyed without a segmentation loses the whole object for these coefficients, more than 700 000
bytes. -/
theorem C112_mfcc_violation (nb : Nat) (a : SegArgs) (ht : a.type = .mfcc) (hh : 0 < a.hist) (i : InitArgs) (ops : List SegOp) (hp : ∀ o ∈ ops, o.plain) (h : Heap) (w : h.WF) :
    ∃ (lost : Blocks) (h' : Heap), (segClass so nb).life a (.initialise i :: ops) h = some ((), h') ∧ h'.live = lost + h.live ∧ lost.map Prod.snd = mfccSizes so ∧ 700000 < (mfccSizes so).sum := by
  obtain ⟨lost, h', e, w', l, s⟩ := C112_life_partial so nb a (.initialise i :: ops) h hh w
  refine ⟨lost, h', e, l, ?_, ?_⟩
  · rw [s, Losses.total]
    simp only [segLosses]
    rw [← segLosses, Losses.rest, rest_plain so ops hp]
    rcases a with ⟨type, hist, states, bins⟩
    replace ht : type = .mfcc := ht
    subst ht
    rcases i with ⟨_ | d, K, half, wl, tmps⟩ <;> simp [segLosses, initNext, decLost]
  · simp only [mfccSizes, fftSizes, Multiset.sum_add, Multiset.sum_replicate, Multiset.sum_singleton, Multiset.insert_eq_cons, Multiset.sum_cons, smul_eq_mul]
    omega

example (h : Heap) (w : h.WF) : ∃ (lost : Blocks) (h' : Heap), (segClass so 64).life ⟨.mfcc, 15, 40, 12⟩ [.initialise ⟨none, 0, 0, fun _ => 0, []⟩, .extract ⟨true, 6615, 5, []⟩] h = some ((), h') ∧
    h'.live = lost + h.live ∧ lost.map Prod.snd = mfccSizes so ∧ 700000 < (mfccSizes so).sum :=
  C112_mfcc_violation so 64 ⟨.mfcc, 15, 40, 12⟩ rfl (by norm_num) _ _ (by simp [SegOp.plain]) h w

/-- **C112** It also fails when a segmenter for constant-Q or chroma features is initialised again: after a segmentation the transform is lost, without one the decimator and the whole constant-Q
object as well. -/
theorem C112_again_violation (nb : Nat) (a : SegArgs) (ht : a.type = .constq ∨ a.type = .chroma) (hh : 0 < a.hist) (n : Nat) (i : InitArgs) (hi : i.dec = some n) (h : Heap) (w : h.WF) :
    (∃ (lost : Blocks) (h' : Heap), (segClass so nb).life a [.initialise i, .initialise i] h = some ((), h') ∧ h'.live = lost + h.live ∧
      lost.map Prod.snd = decSizes so n + (cqSizes so i.K + fftSizes so (2 * i.half))) ∧
    ∃ (lost : Blocks) (h' : Heap), (segClass so nb).life a [.initialise i, .segment ⟨10, []⟩, .initialise i] h = some ((), h') ∧ h'.live = lost + h.live ∧
      lost.map Prod.snd = fftSizes so (2 * i.half) := by
  rcases a with ⟨type, hist, states, bins⟩
  rcases i with ⟨dec, K, half, wl, tmps⟩
  replace hi : dec = some n := hi
  subst hi
  replace hh : 0 < hist := hh
  constructor
  · obtain ⟨lost, h', e, w', l, s⟩ := C112_life_partial so nb ⟨type, hist, states, bins⟩ [.initialise ⟨some n, K, half, wl, tmps⟩, .initialise ⟨some n, K, half, wl, tmps⟩] h hh w
    refine ⟨lost, h', e, l, s.trans ?_⟩
    rcases ht with rfl | rfl <;> simp [Losses.total, Losses.rest, segLosses, initNext, decLost, decKept]
  · obtain ⟨lost, h', e, w', l, s⟩ := C112_life_partial so nb ⟨type, hist, states, bins⟩ [.initialise ⟨some n, K, half, wl, tmps⟩, .segment ⟨10, []⟩, .initialise ⟨some n, K, half, wl, tmps⟩] h hh w
    refine ⟨lost, h', e, l, s.trans ?_⟩
    rcases ht with rfl | rfl <;> simp [Losses.total, Losses.rest, segLosses, initNext, decLost, decKept, hh]

example (h : Heap) (w : h.WF) : ∃ (lost : Blocks) (h' : Heap),
    (segClass so 64).life ⟨.constq, 15, 40, 8⟩ [.initialise ⟨some 26460, 64, 1024, fun _ => 5, []⟩, .segment ⟨10, []⟩, .initialise ⟨some 26460, 64, 1024, fun _ => 5, []⟩] h = some ((), h') ∧
      h'.live = lost + h.live ∧ lost.map Prod.snd = fftSizes so 2048 :=
  (C112_again_violation so 64 ⟨.constq, 15, 40, 8⟩ (.inl rfl) (by norm_num) 26460 ⟨some 26460, 64, 1024, fun _ => 5, []⟩ rfl h w).2

end QM.Heap
