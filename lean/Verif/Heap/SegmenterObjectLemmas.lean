import Verif.Heap.SegmenterObject
import Verif.Heap.ObjectsLemmas

/-!
# Memory of the structural segmenter: one rule for each method
-/

namespace QM.Heap

variable (so : Sizes)

abbrev ownFft (x : Option FftReal) : Blocks := x.elim 0 (FftReal.own so)
abbrev ownCq (x : Option Cq) : Blocks := x.elim 0 (Cq.own so)
abbrev ownMfcc (x : Option Mfcc) : Blocks := x.elim 0 (Mfcc.own so)

theorem delFft_ok (x : Option FftReal) : Tri [ownFft so x] (delFft x) (fun _ => True) (fun _ => 0) 0 := by
  cases x with
  | none => exact Tri.ret trivial (by simp [ownFft])
  | some x => exact x.del_ok so

theorem delCq_ok (x : Option Cq) : Tri [ownCq so x] (delCq x) (fun _ => True) (fun _ => 0) 0 := by
  cases x with
  | none => exact Tri.ret trivial (by simp [ownCq])
  | some x => exact x.del_ok so

theorem delMfcc_ok (x : Option Mfcc) (g : ∀ m ∈ x, m.Good) : Tri [ownMfcc so x] (delMfcc x) (fun _ => True) (fun _ => 0) 0 := by
  cases x with
  | none => exact Tri.ret trivial (by simp [ownMfcc])
  | some x => exact x.del_ok so (g x rfl)

/-- Blocks of a segmenter. -/
def Seg.parts (x : Seg) : List Blocks :=
  [blk x.self (so.obj .segmenter), ownWin so x.window, ownFft so x.fft, ownCq so x.constq, ownMfcc so x.mfcc, ownDec so x.decimator]
def Seg.own (x : Seg) : Blocks := (x.parts so).sum

/-- Sizes of the blocks of objects that may be null. -/
abbrev szFft (x : Option FftReal) : Multiset Nat := (ownFft so x).map Prod.snd
abbrev szCq (x : Option Cq) : Multiset Nat := (ownCq so x).map Prod.snd
abbrev szMfcc (x : Option Mfcc) : Multiset Nat := (ownMfcc so x).map Prod.snd
abbrev szDec (x : Option Dec) : Multiset Nat := (ownDec so x).map Prod.snd

/-- An `MFCC` as `initialise` makes it. -/
structure Mfcc.Std (m : Mfcc) : Prop where
  good : m.Good
  n : m.n = 2048
  nceps : m.nceps = 19
  filters : m.filters = 40
  c0 : m.c0 = true
  fft : m.fft.n = 2048
  window : m.window.n = 2048

/-- If there is a `ConstantQ`, it has a kernel and there is a transform. -/
structure Seg.Good (x : Seg) : Prop where
  sk : ∀ c ∈ x.constq, c.sk.isSome
  fft : x.constq.isSome → x.fft.isSome
  mfcc : ∀ m ∈ x.mfcc, m.Std
  hist : 0 < x.args.hist

theorem Seg.new_ok (a : SegArgs) (v : 0 < a.hist) :
    Tri [] (Seg.new so a) (fun x => x.Good ∧ ∃ p, x = ⟨a, a.type, 0, [], p, none, none, none, none, none⟩) (Seg.own so) 0 := by
  unfold Seg.new
  hrun
  refine Tri.ret ⟨⟨fun c h => by simp at h, fun h => by simp at h, fun m h => by simp at h, v⟩, _, rfl⟩ ?_
  simp [Seg.own, Seg.parts, ownWin, ownFft, ownCq, ownMfcc, ownDec]

/-- The decimator after `initialise`: a new one if there is to be one, else the old one; and what is lost. -/
def decKept (new old : Option Nat) : Option Nat := match new with
  | none => old
  | some n => some n
def decLost (new : Option Nat) (old : Multiset Nat) : Multiset Nat := match new with
  | none => 0
  | some _ => old

theorem Seg.initDec_ok (x : Seg) (d : Option Nat) :
    Tri [x.own so] (x.initDec so d) (fun y => (∃ e, y = { x with decimator := e }) ∧ y.decimator.map Dec.n = decKept d (x.decimator.map Dec.n)) (Seg.own so)
      (decLost d (szDec so x.decimator)) := by
  cases d with
  | none => exact Tri.ret ⟨⟨x.decimator, rfl⟩, rfl⟩ (by simp)
  | some n =>
    refine Tri.parts ?_
    unfold Seg.initDec Seg.parts
    refine Tri.call0P (Dec.new_ok so n) fun d hd => ?_
    refine Tri.sizes (by simp [decLost]) (Tri.forget (L := 0) (P := ownDec so x.decimator) (by htake) ?_)
    refine Tri.ret ⟨⟨_, rfl⟩, by simp [hd, decKept]⟩ ?_
    simp only [List.sum_cons, List.sum_nil, Seg.own, Seg.parts, ownDec, Option.elim]
    abel

theorem Seg.initConstQ_ok (x : Seg) (a : InitArgs) :
    Tri [x.own so] (x.initConstQ so a)
      (fun y => ∃ c f e, y = { x with decimator := e, constq := some c, ncoeff := a.K, fft := some f } ∧ c.K = a.K ∧ c.sk.isSome ∧ f.n = 2 * a.half ∧
        e.map Dec.n = decKept a.dec (x.decimator.map Dec.n)) (Seg.own so)
      (decLost a.dec (szDec so x.decimator) + (szCq so x.constq + szFft so x.fft)) := by
  unfold Seg.initConstQ
  refine Tri.call .zero (x.initDec_ok so a.dec) fun y ⟨⟨e, ey⟩, hd⟩ => ?_
  subst ey
  refine Tri.call0P (Cq.new_ok so a.K (2 * a.half)) fun c0 hc0 => ?_
  have hsk := c0.sparsekernel_ok so a.w a.tmps
  rw [hc0.2.2] at hsk
  refine Tri.callP .zero hsk fun c hc => ?_
  refine Tri.call0P (FftReal.new_ok so (2 * a.half)) fun o ho => ?_
  cases o with
  | none =>
    replace ho : 2 * a.half % 2 = 1 := ho
    omega
  | some f =>
    replace ho : 2 * a.half % 2 = 0 ∧ f.n = 2 * a.half := ho
    dsimp only [Option.elim]
    refine Tri.same (Γ' := [f.own so, c.own so, blk x.self (so.obj .segmenter), ownWin so x.window, ownFft so x.fft, ownCq so x.constq, ownMfcc so x.mfcc, ownDec so e])
      (by simp only [List.sum_cons, List.sum_nil, Seg.own, Seg.parts]; abel) ?_
    refine Tri.sizes (by rw [add_zero]) (Tri.forget (P := ownCq so x.constq) (by htake) (Tri.forget (L := 0) (P := ownFft so x.fft) (by htake) ?_))
    refine Tri.ret ⟨c, f, e, rfl, by rw [hc.1, hc0.1], hc.2.2, ho.2, hd⟩ ?_
    simp only [List.sum_cons, List.sum_nil, Seg.own, Seg.parts, ownFft, ownCq, Option.elim]
    abel

theorem Seg.initMfcc_ok (x : Seg) (a : InitArgs) :
    Tri [x.own so] (x.initMfcc so a)
      (fun y => ∃ m e, y = { x with decimator := e, mfcc := some m, ncoeff := 20 } ∧ m.Std ∧ e.map Dec.n = decKept a.dec (x.decimator.map Dec.n)) (Seg.own so)
      (decLost a.dec (szDec so x.decimator) + szMfcc so x.mfcc) := by
  unfold Seg.initMfcc
  refine Tri.call .zero (x.initDec_ok so a.dec) fun y ⟨⟨e, ey⟩, hd⟩ => ?_
  subst ey
  refine Tri.call0P (Mfcc.new_ok so 2048 19 40 true) fun o ho => ?_
  cases o with
  | none => exact absurd ho (by norm_num)
  | some m =>
    obtain ⟨-, g, e1, e2, e3, e4, e5, e6⟩ := ho
    dsimp only [Option.elim]
    refine Tri.same (Γ' := [m.own so, blk x.self (so.obj .segmenter), ownWin so x.window, ownFft so x.fft, ownCq so x.constq, ownMfcc so x.mfcc, ownDec so e])
      (by simp only [List.sum_cons, List.sum_nil, Seg.own, Seg.parts]; abel) ?_
    refine Tri.sizes (by rw [add_zero]) (Tri.forget (L := 0) (P := ownMfcc so x.mfcc) (by htake) ?_)
    refine Tri.ret ⟨m, e, rfl, ⟨g, e1, e2, e3, e4, e5, e6⟩, hd⟩ ?_
    simp only [List.sum_cons, List.sum_nil, Seg.own, Seg.parts, ownMfcc, Option.elim]
    abel

theorem Seg.window_ok (x : Seg) (n : Nat) : Tri [x.own so] (x.window! so n) (fun y => ∃ v, y = { x with window := some v }) (Seg.own so) 0 := by
  rcases x with ⟨args, type, ncoeff, feats, self, window, fft, constq, mfcc, decimator⟩
  unfold Seg.window!
  dsimp only
  cases window with
  | none =>
    refine Tri.parts ?_
    unfold Seg.parts
    dsimp only
    refine Tri.call0P (Win.new_ok so n) fun v hv => ?_
    refine Tri.ret ⟨v, rfl⟩ ?_
    simp only [List.sum_cons, List.sum_nil, Seg.own, Seg.parts, ownWin, Option.elim]
    abel
  | some v =>
    dsimp only
    split
    · exact Tri.ret ⟨v, rfl⟩ (by simp)
    · refine Tri.parts ?_
      unfold Seg.parts
      dsimp only [ownWin, Option.elim]
      hcall (v.del_ok so)
      refine Tri.call0P (Win.new_ok so n) fun v hv => ?_
      refine Tri.ret ⟨v, rfl⟩ ?_
      simp only [List.sum_cons, List.sum_nil, Seg.own, Seg.parts, ownWin, Option.elim]
      abel

theorem decout_ok (d : Option Dec) (n : Nat) : Tri [ownDec so d] (decout d n) (fun _ => True) (fun p => ownDec so d + ob p (8 * n)) 0 := by
  cases d with
  | none => exact Tri.ret trivial (by simp [ob])
  | some d =>
    dsimp only [decout, ownDec, Option.elim]
    hrun
    hcall (d.process_ok so)
    hrun
    hend []

theorem Seg.extractConstQ_ok (x : Seg) (g : x.Good) (a : ExtractArgs) :
    Tri [x.own so] (x.extractConstQ so a) (fun y => ∃ v, y = { x with window := v, feats := if x.constq.isSome ∧ a.enough then x.feats ++ [x.ncoeff] else x.feats }) (Seg.own so) 0 := by
  rcases x with ⟨args, type, ncoeff, feats, self, window, fft, constq, mfcc, decimator⟩
  unfold Seg.extractConstQ
  dsimp only
  cases constq with
  | none => exact Tri.ret ⟨window, by simp⟩ (by simp)
  | some cq =>
    cases fft with
    | none => exact absurd (g.fft rfl) (by simp)
    | some f =>
      dsimp only
      by_cases e : a.enough = true
      · rw [if_pos e]
        refine Tri.callP .zero (Seg.window_ok so _ cq.N) fun y ⟨v, hy⟩ => ?_
        subst hy
        refine Tri.parts ?_
        unfold Seg.parts
        dsimp only [ownWin, ownFft, ownCq, Option.elim]
        refine Tri.callP (by htake) (decout_ok so decimator a.pcount) fun p _ => ?_
        hrun
        rename_i frame real imag cqre cqim
        refine Tri.same (Γ' := [[blk frame (8 * cq.N), blk real (8 * cq.N), blk imag (8 * cq.N), blk cqre (8 * ncoeff), blk cqim (8 * ncoeff), v.own so, f.own so, cq.own so].sum,
          blk self (so.obj .segmenter), ownMfcc so mfcc, ownDec so decimator, ob p (8 * a.pcount)]) (by simp only [List.sum_cons, List.sum_nil]; abel) ?_
        refine Tri.callP .zero (Tri.loop fun j _ => Tri.parts ?_) fun _ _ => ?_
        · dsimp only [cutWin, forwardFft]
          hrun
          hcall (v.cut_ok so)
          hcall (f.forward_ok so a.tmps)
          hrun
          hcall (cq.process_ok so)
          hrun
          refine Tri.bindPure ?_
          hrun
          hend []
        · refine Tri.same (Γ' := [blk frame (8 * cq.N), blk real (8 * cq.N), blk imag (8 * cq.N), blk cqre (8 * ncoeff), blk cqim (8 * ncoeff), v.own so, f.own so, cq.own so,
            blk self (so.obj .segmenter), ownMfcc so mfcc, ownDec so decimator, ob p (8 * a.pcount)]) (by simp only [List.sum_cons, List.sum_nil]; abel) ?_
          hrun
          refine Tri.ret ⟨some v, by simp [e]⟩ ?_
          simp only [List.sum_cons, List.sum_nil, Seg.own, Seg.parts, ownWin, ownFft, ownCq, Option.elim]
          abel
      · rw [if_neg e]
        exact Tri.ret ⟨window, by simp [e]⟩ (by simp)

theorem Seg.extractMfcc_ok (x : Seg) (g : x.Good) (a : ExtractArgs) :
    Tri [x.own so] (x.extractMfcc a) (fun y => y = { x with feats := if x.mfcc.isSome ∧ a.enough then x.feats ++ [x.ncoeff] else x.feats }) (Seg.own so) 0 := by
  rcases x with ⟨args, type, ncoeff, feats, self, window, fft, constq, mfcc, decimator⟩
  unfold Seg.extractMfcc
  dsimp only
  cases mfcc with
  | none => exact Tri.ret (by simp) (by simp)
  | some m =>
    dsimp only
    have gm := (g.mfcc m rfl).good
    by_cases e : a.enough = true
    · rw [if_pos e]
      refine Tri.parts ?_
      unfold Seg.parts
      dsimp only [ownMfcc, Option.elim]
      refine Tri.callP (by htake) (decout_ok so decimator a.pcount) fun p _ => ?_
      hrun
      rename_i frame ccout
      refine Tri.same (Γ' := [[blk frame (8 * m.n), blk ccout (8 * ncoeff), m.own so].sum, blk self (so.obj .segmenter), ownWin so window, ownFft so fft, ownCq so constq, ownDec so decimator,
        ob p (8 * a.pcount)]) (by simp only [List.sum_cons, List.sum_nil]; abel) ?_
      refine Tri.callP .zero (Tri.loop fun j _ => Tri.parts ?_) fun _ _ => ?_
      · hrun
        hcall (m.process_ok so gm (some a.tmps))
        refine Tri.bindPure ?_
        hrun
        hend []
      · refine Tri.same (Γ' := [blk frame (8 * m.n), blk ccout (8 * ncoeff), m.own so, blk self (so.obj .segmenter), ownWin so window, ownFft so fft, ownCq so constq, ownDec so decimator,
          ob p (8 * a.pcount)]) (by simp only [List.sum_cons, List.sum_nil]; abel) ?_
        hrun
        refine Tri.ret (by simp [e]) ?_
        simp only [List.sum_cons, List.sum_nil, Seg.own, Seg.parts, ownMfcc, Option.elim]
        abel
    · rw [if_neg e]
      exact Tri.ret (by simp [e]) (by simp)

theorem call_tri (nb : Nat) (c : Call) : Tri [] (c.run nb) (fun _ => True) (fun _ => 0) c.lost := by
  intro h rest w e
  obtain ⟨lost, h', e1, w1, l1, s1⟩ := call_ok nb c w
  exact ⟨(), h', lost, e1, w1, trivial, by rw [l1, e]; simp, s1⟩

theorem Seg.cluster_ok (x : Seg) (nb : Nat) (s : SegmentArgs) {c : Call} (hc : segCall x.args x.type x.ncoeff x.feats s = some c) :
    Tri [] (x.cluster nb s) (fun _ => True) (fun _ => 0) c.lost := by
  unfold Seg.cluster
  refine Tri.call0P (Tri.allocRows x.feats.length (8 * rowLen x.type x.ncoeff x.feats)) fun arr ha => ?_
  hcall (Tri.touchRows ha)
  hrun
  rw [hc]
  refine Tri.sizes (by rw [add_zero]) (Tri.call0 (L' := 0) (call_tri nb c) fun _ _ => ?_)
  hrun
  refine Tri.bindPure ?_
  hcall (Tri.freeRows ha)
  hend []

theorem segCall_some (a : SegArgs) (type : FType) (ncoeff : Nat) (feats : List Nat) (s : SegmentArgs) (h : feats ≠ []) : ∃ c, segCall a type ncoeff feats s = some c := by
  cases feats with
  | nil => exact absurd rfl h
  | cons f fs => cases type <;> exact ⟨_, rfl⟩

theorem Seg.segment_ok (x : Seg) (g : x.Good) (nb : Nat) (s : SegmentArgs) :
    Tri [x.own so] (x.segment nb s)
      (fun y => y = { x with constq := none, mfcc := none, decimator := none, feats := if x.feats.length < x.args.hist then x.feats else [] }) (Seg.own so)
      (if x.feats.length < x.args.hist then 0 else (segCall x.args x.type x.ncoeff x.feats s).elim 0 Call.lost) := by
  refine Tri.parts ?_
  unfold Seg.segment Seg.parts
  hrun
  hcall (delCq_ok so x.constq)
  hcall (delMfcc_ok so x.mfcc fun m hm => (g.mfcc m hm).good)
  hcall (delDec_ok so x.decimator)
  by_cases e : x.feats.length < x.args.hist
  · simp only [if_pos e]
    refine Tri.ret rfl ?_
    simp only [List.sum_cons, List.sum_nil, Seg.own, Seg.parts, ownCq, ownMfcc, ownDec, Option.elim]
    abel
  · simp only [if_neg e]
    obtain ⟨c, hc⟩ := segCall_some x.args x.type x.ncoeff x.feats s (by
      intro h
      rw [h] at e
      exact e g.hist)
    rw [hc]
    refine Tri.sizes (by rw [add_zero]; rfl) (Tri.call0 (L' := 0) (x.cluster_ok nb s hc) fun _ _ => ?_)
    refine Tri.ret rfl ?_
    simp only [List.sum_cons, List.sum_nil, Seg.own, Seg.parts, ownCq, ownMfcc, ownDec, Option.elim]
    abel

theorem Seg.del_ok (x : Seg) : Tri [x.own so] x.del (fun _ => True) (fun _ => 0) (szMfcc so x.mfcc) := by
  refine Tri.parts ?_
  unfold Seg.del Seg.parts
  hrun
  hcall (delWin_ok so x.window)
  hcall (delCq_ok so x.constq)
  hcall (delDec_ok so x.decimator)
  hcall (delFft_ok so x.fft)
  refine Tri.bindPure ?_
  hrun
  refine Tri.sizes (by simp) (Tri.forget (L := 0) (P := ownMfcc so x.mfcc) (by htake) ?_)
  hend []

end QM.Heap
