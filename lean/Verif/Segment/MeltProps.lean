import Verif.Segment.Props
import Verif.Common.Tri
import Verif.DownBeat.Props

/-! # C42, C58: clustering of histograms -/

namespace QM.Segment

open Finset

/-! ## C42 -/

/-- A matrix of `n` rows of length `k`. -/
def Rect {β : Type} (n k : Nat) (M : List (List β)) : Prop := M.length = n ∧ ∀ r ∈ M, r.length = k

theorem Rect.row {β : Type} {n k : Nat} {M : List (List β)} (h : Rect n k M) {i : Nat} {r : List β} (hr : M[i]? = some r) : r.length = k :=
  h.2 r (List.mem_of_getElem? hr)

theorem Rect.set {β : Type} {n k : Nat} {M : List (List β)} (h : Rect n k M) {i : Nat} {r : List β} (hr : r.length = k) :
    Rect n k (M.set i r) :=
  ⟨by rw [List.length_set]; exact h.1, fun x hx => (List.mem_or_eq_of_mem_set hx).elim (h.2 x) (fun e => e ▸ hr)⟩

/-- All of `n` labels are between 1 and `k`. -/
def Labels (n k : Nat) (c : List Int) : Prop := c.length = n ∧ ∀ l ∈ c, 1 ≤ l ∧ l ≤ k

/-- The sizes of the arrays, and the labels. -/
structure Melt.Fits {K : Type} (m n k : Nat) (s : Melt K) : Prop where
  cl : Rect k m s.cl
  nc : Rect n k s.nc
  lp : Rect n k s.lp
  oldc : s.oldc.length = n
  c : Labels n k s.c

section safe
variable {K : Type} (A : Arith K)

theorem kldist_tri (a bs : List K) (off n : Nat) (ha : n ≤ a.length) (hb : off + n ≤ bs.length) :
    Tri True (kldist A a bs off n) (fun _ => True) := by
  unfold kldist
  refine Tri.loop (fun _ _ => True) trivial (fun i d hi _ => ?_)
  refine Tri.bind (Tri.get fun _ => by omega) (fun x _ => Tri.bind (Tri.get fun _ => by omega) (fun y _ => ?_))
  dsimp only
  exact Tri.get_ite (fun _ => Tri.pure trivial) (fun _ => Tri.pure trivial)

theorem initCluster_tri (m : Nat) (rnd : Nat → Int) (row : List K) (h : row.length = m) :
    Tri True (initCluster A m rnd row) (fun r => r.length = m) := by
  unfold initCluster
  refine Tri.bind (Tri.loop (fun _ s => s.1.length = m) h (fun j s hj hs => ?_)) (fun s hs => ?_)
  · refine Tri.bind (Tri.wr fun _ => by omega) (fun r hr => ?_)
    obtain ⟨_, rfl⟩ := hr
    exact Tri.pure (by dsimp only; rw [List.length_set]; exact hs)
  · dsimp only
    refine Tri.loop (fun _ (r : List K) => r.length = m) hs (fun j r hj hr => ?_)
    refine Tri.bind (Tri.get fun _ => by omega) (fun v _ => (Tri.wr fun _ => by omega).mono (fun r' hr' => ?_))
    obtain ⟨_, rfl⟩ := hr'
    rw [List.length_set]; exact hr

theorem neighbours_tri (n limit : Nat) (c : List Int) (i j : Nat) (hc : c.length = n) (hi : i < n) :
    Tri True (neighbours n limit c i j) (fun _ => True) := by
  unfold neighbours
  dsimp only
  refine Tri.loop (fun _ _ => True) trivial (fun u nc hu _ => ?_)
  refine Tri.bind (Tri.get fun _ => ?_) (fun l _ => Tri.pure trivial)
  split_ifs at hu <;> omega

theorem assignRow_tri (h : List K) (m n k limit : Nat) (beta : K) (cl : List (List K)) (c : List Int) (i : Nat) (row : List K) (nc : List Int)
    (hh : h.length = n * m) (hcl : Rect k m cl) (hc : c.length = n) (hi : i < n) (hrow : row.length = k) (hnc : nc.length = k) :
    Tri True (assignRow A h m n k limit beta cl c i row nc) (fun r => r.1.length = k ∧ r.2.length = k) := by
  unfold assignRow
  refine Tri.bind (Tri.loop (fun _ s => s.1.length = k ∧ s.2.1.length = k) ⟨hrow, hnc⟩ (fun j s hj hs => ?_)) (fun s hs => ?_)
  · obtain ⟨s1, s2⟩ := hs
    refine Tri.bind (Tri.get fun _ => by rw [hcl.1]; exact hj) (fun r hr => ?_)
    have him : i * m + m ≤ h.length := by
      have := Nat.mul_le_mul_right m (Nat.succ_le_of_lt hi)
      rw [Nat.succ_mul] at this
      omega
    refine Tri.bind (kldist_tri A r h (i * m) m (hcl.row hr).ge him) (fun d _ => ?_)
    dsimp only
    refine Tri.bind (Tri.wr fun _ => by omega) (fun r' hr' => ?_)
    obtain ⟨_, rfl⟩ := hr'
    refine Tri.bind (neighbours_tri n limit c i j hc hi) (fun count _ => Tri.bind (Tri.wr fun _ => by omega) (fun nc' hnc' => ?_))
    obtain ⟨_, rfl⟩ := hnc'
    exact Tri.pure ⟨by dsimp only; rw [List.length_set]; exact s1, by dsimp only; rw [List.length_set]; exact s2⟩
  · obtain ⟨s1, s2⟩ := hs
    dsimp only
    refine Tri.bind (Tri.loop (fun _ r => r.length = k) s1 (fun j r hj hr => ?_)) (fun r hr => Tri.pure ⟨hr, s2⟩)
    refine Tri.bind (Tri.get fun _ => by omega) (fun v _ => Tri.bind (Tri.get fun _ => by omega) (fun w _ => ?_))
    refine (Tri.wr fun _ => by omega).mono (fun r' hr' => ?_)
    obtain ⟨_, rfl⟩ := hr'
    rw [List.length_set]; exact hr

theorem bestLabel_tri (k : Nat) (row : List K) (hk : 1 ≤ k) (hrow : row.length = k) :
    Tri True (bestLabel A k row) (fun l => 1 ≤ l ∧ l ≤ k) := by
  unfold bestLabel
  refine Tri.bind (Tri.get fun _ => by omega) (fun v _ => ?_)
  refine Tri.bind (Tri.loop (fun _ s => 1 ≤ s.2 ∧ s.2 ≤ (k : Int)) ⟨le_refl _, by dsimp only; omega⟩ (fun n s hn hs => ?_)) (fun s hs => Tri.pure hs)
  refine Tri.bind (Tri.get fun _ => by omega) (fun w _ => Tri.pure ?_)
  split_ifs
  · dsimp only; omega
  · exact hs

theorem updateCluster_tri (h : List K) (m n k : Nat) (lp : List (List K)) (j : Nat) (row : List K) (hh : h.length = n * m) (hlp : Rect n k lp)
    (hj : j < k) (hrow : row.length = m) : Tri True (updateCluster A h m n lp j row) (fun r => r.length = m) := by
  unfold updateCluster
  refine Tri.bind (Tri.loop (fun _ (r : List K) => r.length = m) hrow (fun b r hb hr => ?_)) (fun row1 hrow1 => ?_)
  · refine Tri.bind (Tri.wr fun _ => by omega) (fun r' hr' => ?_)
    obtain ⟨_, rfl⟩ := hr'
    refine Tri.loop (fun _ (r : List K) => r.length = m) (by rw [List.length_set]; exact hr) (fun i r2 hi hr2 => ?_)
    refine Tri.bind (Tri.get fun _ => by omega) (fun v _ => Tri.bind (Tri.get fun _ => by rw [hlp.1]; exact hi) (fun q hq => ?_))
    refine Tri.bind (Tri.get fun _ => by rw [hlp.row hq]; exact hj) (fun e _ => ?_)
    refine Tri.bind (Tri.get fun _ => by rw [hh]; exact flat_lt hi hb) (fun x _ => (Tri.wr fun _ => by omega).mono (fun r' hr' => ?_))
    obtain ⟨_, rfl⟩ := hr'
    rw [List.length_set]; exact hr2
  · refine Tri.bind (Tri.loop (fun _ _ => True) trivial (fun i sum hi _ => ?_)) (fun sum _ => ?_)
    · refine Tri.bind (Tri.get fun _ => by rw [hlp.1]; exact hi) (fun q hq => ?_)
      exact Tri.bind (Tri.get fun _ => by rw [hlp.row hq]; exact hj) (fun e _ => Tri.pure trivial)
    · refine Tri.loop (fun _ (r : List K) => r.length = m) hrow1 (fun b r hb hr => ?_)
      refine Tri.bind (Tri.get fun _ => by omega) (fun v _ => (Tri.wr fun _ => by omega).mono (fun r' hr' => ?_))
      obtain ⟨_, rfl⟩ := hr'
      rw [List.length_set]; exact hr

theorem Labels.set {n k : Nat} {c : List Int} (h : Labels n k c) {i : Nat} {l : Int} (hl : 1 ≤ l ∧ l ≤ k) : Labels n k (c.set i l) :=
  ⟨by rw [List.length_set]; exact h.1, fun x hx => (List.mem_or_eq_of_mem_set hx).elim (h.2 x) (fun e => e ▸ hl)⟩

theorem meltStep_tri (h : List K) (m n k limit : Nat) (beta : K) (s : Melt K) (hk : 1 ≤ k) (hh : h.length = n * m) (hs : s.Fits m n k) :
    Tri True (meltStep A h m n k limit beta s) (fun r => r.1.Fits m n k) := by
  unfold meltStep
  refine Tri.bind (Tri.loop (fun _ u => Rect n k u.1 ∧ Rect n k u.2.1 ∧ u.2.2.length = n) ⟨hs.lp, hs.nc, hs.oldc⟩ (fun i u hi hu => ?_)) (fun u hu => ?_)
  · obtain ⟨u1, u2, u3⟩ := hu
    refine Tri.bind (Tri.get fun _ => by rw [hs.c.1]; exact hi) (fun l _ => Tri.bind (Tri.wr fun _ => by omega) (fun oldc ho => ?_))
    obtain ⟨_, rfl⟩ := ho
    refine Tri.bind (Tri.get fun _ => by rw [u1.1]; exact hi) (fun row hrow => Tri.bind (Tri.get fun _ => by rw [u2.1]; exact hi) (fun nc hnc => ?_))
    refine Tri.bind (assignRow_tri A h m n k limit beta s.cl s.c i row nc hh hs.cl hs.c.1 hi (u1.row hrow) (u2.row hnc)) (fun r hr => ?_)
    refine Tri.bind (Tri.wr fun _ => by rw [u1.1]; exact hi) (fun lp hlp => ?_)
    obtain ⟨_, rfl⟩ := hlp
    refine Tri.bind (Tri.wr fun _ => by rw [u2.1]; exact hi) (fun ncs hncs => ?_)
    obtain ⟨_, rfl⟩ := hncs
    exact Tri.pure ⟨u1.set hr.1, u2.set hr.2, by dsimp only; rw [List.length_set]; exact u3⟩
  · obtain ⟨u1, u2, u3⟩ := hu
    refine Tri.bind (Tri.loop (fun _ c => Labels n k c) hs.c (fun i c hi hc => ?_)) (fun c hc => ?_)
    · refine Tri.bind (Tri.get fun _ => by rw [u1.1]; exact hi) (fun row hrow => ?_)
      refine Tri.bind (bestLabel_tri A k row hk (u1.row hrow)) (fun l hl => (Tri.wr fun _ => by rw [hc.1]; exact hi).mono (fun c' hc' => ?_))
      obtain ⟨_, rfl⟩ := hc'
      exact hc.set hl
    · refine Tri.get_ite (fun _ => Tri.pure ⟨hs.cl, u2, u1, u3, hc⟩) (fun _ => ?_)
      refine Tri.bind (Tri.loop (fun _ cl => Rect k m cl) hs.cl (fun j cl hj hcl => ?_)) (fun cl hcl => Tri.pure ⟨hcl, u2, u1, u3, hc⟩)
      refine Tri.bind (Tri.get fun _ => by rw [hcl.1]; exact hj) (fun row hrow => ?_)
      refine Tri.bind (updateCluster_tri A h m n k u.1 j row hh u1 hj (hcl.row hrow)) (fun r hr => ?_)
      refine (Tri.wr fun _ => by rw [hcl.1]; exact hj).mono (fun cl' hcl' => ?_)
      obtain ⟨_, rfl⟩ := hcl'
      exact hcl.set hr

theorem meltAt_tri (h : List K) (m n k limit : Nat) (beta : K) (hk : 1 ≤ k) (hh : h.length = n * m) : ∀ (maxiter : Nat) (s : Melt K),
    s.Fits m n k → Tri True (meltAt A h m n k limit beta maxiter s) (fun r => r.1.Fits m n k ∧ r.2 ≤ maxiter) := by
  intro maxiter
  induction maxiter with
  | zero => intro s hs; exact Tri.pure ⟨hs, le_refl _⟩
  | succ maxiter ih =>
    intro s hs
    unfold meltAt
    refine Tri.bind (meltStep_tri A h m n k limit beta s hk hh hs) (fun r hr => ?_)
    refine Tri.get_ite (fun _ => Tri.pure ⟨hr, by dsimp only; omega⟩) (fun _ => ?_)
    exact Tri.bind (ih r.1 hr) (fun q hq => Tri.pure ⟨hq.1, by dsimp only; omega⟩)

/-- **C42** Whatever the arithmetic does (so with doubles that are not numbers or infinite too), whatever the histograms, the schedule, the
neighbourhood limit, the random numbers and the contents of fresh memory: with at least one cluster and arrays of the right sizes, every access is inside
its array, each of the `n` labels is between 1 and `k`, and there are at most `20 + 5 * (t - 1)` iterations. -/
theorem C42_clusterMelt (h : List K) (m n : Nat) (Bsched : List K) (t k : Nat) (l : Int) (rnd : Nat → Nat → Int) (s : Melt K)
    (hk : 1 ≤ k) (hh : h.length = n * m) (hB : t ≤ Bsched.length) (hcl : Rect k m s.cl) (hnc : Rect n k s.nc) (hlp : Rect n k s.lp)
    (ho : s.oldc.length = n) (hc : s.c.length = n) :
    ∃ c its, clusterMelt A h m n Bsched t k l rnd s = some (c, its) ∧ c.length = n ∧ (∀ x ∈ c, 1 ≤ x ∧ x ≤ (k : Int)) ∧
      its ≤ 20 + 5 * (t - 1) := by
  suffices H : Tri True (clusterMelt A h m n Bsched t k l rnd s) (fun r => Labels n k r.1 ∧ r.2 ≤ 20 + 5 * (t - 1)) by
    obtain ⟨r, h1, h2, h3⟩ := H.total trivial
    exact ⟨r.1, r.2, h1, h2.1, h2.2, h3⟩
  unfold clusterMelt
  dsimp only
  refine Tri.bind (Tri.loop (fun _ cl => Rect k m cl) hcl (fun i cl hi hr => ?_)) (fun cl hcl' => ?_)
  · refine Tri.bind (Tri.get fun _ => by rw [hr.1]; exact hi) (fun row hrow => ?_)
    refine Tri.bind (initCluster_tri A m (rnd i) row (hr.row hrow)) (fun r hr' => (Tri.wr fun _ => by rw [hr.1]; exact hi).mono (fun q hq => ?_))
    obtain ⟨_, rfl⟩ := hq
    exact hr.set hr'
  · obtain ⟨c1, e1, g1⟩ := fill_part (new := fun _ => (1 : Int)) (f := fun i c => wr c i 1) (holds_of_length hc 0) (fun i ys _ _ => rfl)
    have hlab : Labels n k c1 := ⟨g1.1, fun x hx => by
      obtain ⟨i, hi, rfl⟩ := List.mem_iff_getElem.mp hx
      have := g1.2 i (by rw [← g1.1]; exact hi)
      rw [List.getElem?_eq_getElem hi] at this
      rw [Option.some.inj this]
      exact ⟨le_refl _, show (1 : Int) ≤ k by exact_mod_cast hk⟩⟩
    refine Tri.bind (Tri.of_total ⟨c1, e1, hlab⟩) (fun c hc => ?_)
    refine Tri.bind (Tri.loop (fun a r => r.1.Fits m n k ∧ r.2 ≤ (if a = 0 then 0 else 20 + 5 * (a - 1)))
      ⟨⟨hcl', hnc, hlp, ho, hc⟩, by simp⟩ (fun a r ha hr => ?_)) (fun r hr => Tri.pure ⟨hr.1.c, ?_⟩)
    · refine Tri.bind (Tri.get fun _ => by omega) (fun beta _ => ?_)
      refine Tri.bind (meltAt_tri A h m n k _ beta hk hh _ r.1 hr.1) (fun q hq => Tri.pure ⟨hq.1, ?_⟩)
      have h1 := hr.2
      have h2 := hq.2
      dsimp only
      rw [if_neg (by omega)]
      by_cases e : a = 0
      · rw [if_pos e] at h1 h2; omega
      · rw [if_neg e] at h1 h2; omega
    · have := hr.2
      dsimp only
      split_ifs at this <;> omega

/-- **C42** Without clusters a label is looked for all the same: outside the array. -/
theorem C42_no_clusters (h : List K) (m n : Nat) (Bsched : List K) (t : Nat) (l : Int) (rnd : Nat → Nat → Int) (s : Melt K) (hn : 0 < n)
    (ht : 0 < t) (hlp : Rect n 0 s.lp) : clusterMelt A h m n Bsched t 0 l rnd s = none := by
  have hstep : ∀ limit beta (s' : Melt K), Rect n 0 s'.lp → meltStep A h m n 0 limit beta s' = none := by
    intro limit beta s' hs'
    have : Tri False (meltStep A h m n 0 limit beta s') (fun _ => False) := by
      unfold meltStep
      refine Tri.bind (Tri.loop (fun _ u => Rect n 0 u.1) hs' (fun i u hi hu => ?_)) (fun u hu => ?_)
      · refine Tri.bind (Tri.get nofun) (fun l _ => Tri.bind (Tri.wr nofun) (fun oldc ho => ?_))
        refine Tri.bind (Tri.get nofun) (fun row hrow => Tri.bind (Tri.get nofun) (fun nc hnc => ?_))
        have hrl : row.length = 0 := hu.row hrow
        have he : assignRow A h m n 0 limit beta s'.cl s'.c i row nc = some (row, nc) := rfl
        rw [he]
        refine Tri.bind (Tri.pure (P := fun r => r = (row, nc)) rfl) (fun r hr => ?_)
        subst hr
        refine Tri.bind (Tri.wr nofun) (fun lp hlp => ?_)
        obtain ⟨_, rfl⟩ := hlp
        exact Tri.bind (Tri.wr nofun) (fun ncs _ => Tri.pure (hu.set hrl))
      · refine Tri.bind (P := fun _ => False) ?_ (fun c hc => hc.elim)
        obtain ⟨n', rfl⟩ : ∃ n', n = n' + 1 := ⟨n - 1, by omega⟩
        unfold loop
        refine Tri.bind (P := fun _ => True) (Tri.loop (fun _ _ => True) trivial (fun i c _ _ => ?_)) (fun c _ => ?_)
        · refine Tri.bind (Tri.get nofun) (fun row _ => Tri.bind (P := fun _ => True) ?_ (fun l _ => (Tri.wr nofun).mono (fun _ _ => trivial)))
          cases bestLabel A 0 row <;> simp [Tri]
        · refine Tri.bind (Tri.get nofun) (fun row hrow => Tri.bind (P := fun _ => False) ?_ (fun l hl => hl.elim))
          have hrl : row = [] := List.eq_nil_of_length_eq_zero (hu.row hrow)
          subst hrl
          show Tri False none _
          exact not_false
    cases hm : meltStep A h m n 0 limit beta s' with
    | none => rfl
    | some r => rw [hm] at this; exact this.elim
  suffices H : Tri False (clusterMelt A h m n Bsched t 0 l rnd s) (fun _ => False) by
    cases hm : clusterMelt A h m n Bsched t 0 l rnd s with
    | none => rfl
    | some r => rw [hm] at H; exact H.elim
  unfold clusterMelt
  dsimp only
  refine Tri.bind (P := fun _ => True) (Tri.loop (fun _ _ => True) trivial (fun i c hi _ => by omega)) (fun cl _ => ?_)
  refine Tri.bind (P := fun _ => True) (Tri.loop (fun _ _ => True) trivial (fun i c _ _ => (Tri.wr nofun).mono (fun _ _ => trivial))) (fun c _ => ?_)
  refine Tri.bind (P := fun _ => False) ?_ (fun r hr => hr.elim)
  obtain ⟨t', rfl⟩ : ∃ t', t = t' + 1 := ⟨t - 1, by omega⟩
  have := loop_none_of_le (f := fun a (r : Melt K × Nat) => (do
    let beta ← Bsched[a]?
    let q ← meltAt A h m n 0 (if l > 0 then l.toNat else 20) beta (if a = 0 then 20 else 5) r.1
    pure (q.1, r.2 + q.2) : Option (Melt K × Nat))) (s := (⟨cl, s.nc, s.lp, s.oldc, c⟩, 0)) (m := 1) (n := t' + 1) (by omega) (by
      show (some _ >>= _) = none
      show ((Bsched[0]? >>= _) : Option (Melt K × Nat)) = none
      cases Bsched[0]? with
      | none => rfl
      | some beta =>
        show ((meltAt A h m n 0 _ beta 20 _ >>= _) : Option (Melt K × Nat)) = none
        have : meltAt A h m n 0 (if l > 0 then l.toNat else 20) beta 20 ⟨cl, s.nc, s.lp, s.oldc, c⟩ = none := by
          rw [meltAt, hstep _ _ ⟨cl, s.nc, s.lp, s.oldc, c⟩ hlp]
          rfl
        rw [this]
        rfl)
  rw [this]
  exact not_false

end safe

/-! ### The label of a histogram is the first with the greatest probability -/

/-- **C42** In ordered arithmetic, the label chosen is one more than the index of the first of the greatest values. -/
theorem C42_bestLabel {K : Type} [LinearOrder K] (A : Arith K) (hlt : ∀ x y, A.lt x y = decide (x < y)) (k : Nat) (row : List K)
    (hk : 1 ≤ k) (hrow : row.length = k) : ∃ (j : Nat) (v : K), bestLabel A k row = some ((j : Int) + 1) ∧ row[j]? = some v ∧ (∀ x ∈ row, x ≤ v) ∧
      ∀ (i : Nat) (x : K), i < j → row[i]? = some x → x < v := by
  have hget : ∀ i, i < k → ∃ x, row[i]? = some x := fun i hi => ⟨row[i], List.getElem?_eq_getElem (by omega)⟩
  obtain ⟨v0, h0⟩ := hget 0 (by omega)
  obtain ⟨s, h1, j, h2, h3, h4, h5⟩ := loop_inv (k - 1) (fun n (s : K × Int) => do
      let w ← row[n + 1]?
      pure (if A.lt s.1 w then (w, ((n + 1 : Nat) : Int) + 1) else s)) (v0, 1)
    (fun n s => ∃ j : Nat, s.2 = (j : Int) + 1 ∧ row[j]? = some s.1 ∧ (∀ (i : Nat) (x : K), i < n + 1 → row[i]? = some x → x ≤ s.1) ∧
      ∀ (i : Nat) (x : K), i < j → row[i]? = some x → x < s.1)
    ⟨0, by simp, h0, fun i x hi hx => by
      rw [show i = 0 by omega, h0] at hx
      exact (Option.some.inj hx).ge, fun i x hi _ => absurd hi (by omega)⟩ (by
      rintro n ⟨a, b⟩ hn ⟨j, q1, q2, q3, q4⟩
      dsimp only at q1 q2 q3 q4
      obtain ⟨w, hw⟩ := hget (n + 1) (by omega)
      by_cases e : a < w
      · refine ⟨(w, ((n + 1 : Nat) : Int) + 1), ?_, n + 1, rfl, hw, ?_, ?_⟩
        · rw [bind_ok hw]
          dsimp only
          rw [hlt, if_pos (by simpa using e)]
          rfl
        · intro i x hi hx
          by_cases hin : i = n + 1
          · rw [hin, hw] at hx; exact (Option.some.inj hx).ge
          · exact (q3 i x (by omega) hx).trans e.le
        · intro i x hi hx
          exact (q3 i x hi hx).trans_lt e
      · refine ⟨(a, b), ?_, j, q1, q2, ?_, q4⟩
        · rw [bind_ok hw]
          dsimp only
          rw [hlt, if_neg (by simpa using e)]
          rfl
        · intro i x hi hx
          by_cases hin : i = n + 1
          · rw [hin, hw] at hx; cases hx; exact not_lt.mp e
          · exact q3 i x (by omega) hx)
  refine ⟨j, s.1, ?_, h3, ?_, h5⟩
  · unfold bestLabel
    rw [bind_ok h0, bind_ok h1, ← h2]
    rfl
  · intro x hx
    obtain ⟨i, hi, rfl⟩ := List.mem_iff_getElem.mp hx
    exact h4 i _ (by omega) (List.getElem?_eq_getElem hi)

/-! ### Segment types -/

/-- **C41** The types of segments made from the labels of `cluster_melt` are between 1 and the number of types, never 0; what is documented is that
they are between 0 and the number less one. So with one type, all of the segments, of which there is at least one, have a type outside the documented range. -/
theorem C41_documented_range {K : Type} (A : Arith K) (h : List K) (m n : Nat) (Bsched : List K) (t : Nat) (l : Int) (rnd : Nat → Nat → Int)
    (s : Melt K) (hop : Int) (hhop : 0 < hop) (hn : 0 < n) (hh : h.length = n * m) (hB : t ≤ Bsched.length) (hcl : Rect 1 m s.cl)
    (hnc : Rect n 1 s.nc) (hlp : Rect n 1 s.lp) (ho : s.oldc.length = n) (hc : s.c.length = n) :
    ∃ c its segs, clusterMelt A h m n Bsched t 1 l rnd s = some (c, its) ∧ makeSegmentation hop c = some segs ∧ segs ≠ [] ∧
      ∀ g ∈ segs, ¬ (0 ≤ g.type ∧ g.type ≤ (1 : Int) - 1) := by
  obtain ⟨c, its, h1, h2, h3, _⟩ := C42_clusterMelt A h m n Bsched t 1 l rnd s (le_refl _) hh hB hcl hnc hlp ho hc
  have hne : c ≠ [] := by rintro rfl; simp at h2; omega
  obtain ⟨segs, g1, g2, _⟩ := C41_makeSegmentation hop c hhop hne
  refine ⟨c, its, segs, h1, g1, ?_, fun g hg => ?_⟩
  · rintro rfl
    have : (0 : Int) < (c.length : Int) * hop := mul_pos (by omega) hhop
    exact absurd g2 this.ne
  · have := h3 g.type ((C41_types hop c hhop hne segs g1 g.type).mp (List.mem_map.mpr ⟨g, hg, rfl⟩))
    omega

/-! A concrete run, with integers for numbers. -/

def intArith : Arith Int := ⟨(· + ·), (· - ·), (· * ·), (· / ·), (- ·), fun x y => decide (x < y), id, id, id, id, 1⟩

def demo : Melt Int := ⟨[[9, 9], [8, 8]], [[1, 1], [1, 1], [1, 1]], [[5, 5], [5, 5], [5, 5]], [4, 4, 4], [7, 7, 7]⟩

example : ∃ c its, clusterMelt intArith [1, 0, 1, 0, 0, 1] 2 3 [100, 70] 2 2 1 (fun i j => i + j) demo = some (c, its) ∧ c.length = 3 ∧
    (∀ x ∈ c, 1 ≤ x ∧ x ≤ (2 : Int)) ∧ its ≤ 25 :=
  C42_clusterMelt intArith _ 2 3 _ 2 2 1 _ demo (by omega) rfl (by simp) (by simp [Rect, demo]) (by simp [Rect, demo]) (by simp [Rect, demo]) rfl rfl

/-! ## C58: the distance of histograms -/

/-- Exact arithmetic. -/
noncomputable def realArith : Arith ℝ :=
  ⟨(· + ·), (· - ·), (· * ·), (· / ·), (- ·), fun x y => decide (x < y), fun i => i, Real.exp, Real.log, Real.sqrt, 0.02⟩

/-- A term of the distance. -/
noncomputable def klTerm (x y : ℝ) : ℝ := x * Real.log (x / ((x + y) / 2)) + y * Real.log (y / ((x + y) / 2))

theorem kldist_ok (a b : List ℝ) (ha : ∀ x ∈ a, 0 ≤ x) (hb : ∀ x ∈ b, 0 ≤ x) (hl : b.length = a.length) :
    kldist realArith a b 0 a.length = some (∑ i ∈ range a.length, klTerm (a.getD i 0) (b.getD i 0)) := by
  unfold kldist
  have h0 : realArith.ofInt 0 = 0 := by simp [realArith]
  rw [h0]
  rw [loop_sum a.length _ (fun i => klTerm (a.getD i 0) (b.getD i 0)) 0, zero_add]
  intro i d hi
  have e1 := get_getD a i 0 hi
  have e2 := get_getD b i 0 (by omega)
  rw [bind_ok e1, Nat.zero_add, bind_ok e2]
  have hx := ha _ (List.mem_of_getElem? e1)
  have hy := hb _ (List.mem_of_getElem? e2)
  generalize a.getD i 0 = x at hx
  generalize b.getD i 0 = y at hy
  unfold klTerm
  simp only [realArith, Int.cast_ofNat, decide_eq_true_eq]
  rcases hx.eq_or_lt with hx | hx <;> rcases hy.eq_or_lt with hy | hy
  · rw [← hx, ← hy]; simp
  · rw [← hx]
    rw [if_pos (by linarith), if_neg (lt_irrefl _), if_pos hy]
    simp [pure]
  · rw [← hy]
    rw [if_pos (by linarith), if_neg (lt_irrefl _), if_pos hx]
    simp [pure]
  · rw [if_pos (by linarith), if_pos hx, if_pos hy]
    show some _ = some _
    congr 1
    ring

theorem klTerm_eq {x y : ℝ} (hx : 0 ≤ x) (hy : 0 ≤ y) : klTerm x y = 2 * DownBeat.jsTerm Real.log x y := by
  unfold klTerm DownBeat.jsTerm
  have e : (1 / 2 * x + 1 / 2 * y : ℝ) = (x + y) / 2 := by ring
  rw [e]
  rcases hx.eq_or_lt with hx | hx <;> rcases hy.eq_or_lt with hy | hy
  · rw [← hx, ← hy]; simp
  · rw [← hx, Real.log_div hy.ne' (by linarith)]; simp; ring
  · rw [← hy, Real.log_div hx.ne' (by linarith)]; simp; ring
  · rw [Real.log_div hx.ne' (by linarith), Real.log_div hy.ne' (by linarith)]; ring

theorem klTerm_nonneg {x y : ℝ} (hx : 0 ≤ x) (hy : 0 ≤ y) : 0 ≤ klTerm x y := by
  have h := Real.convexOn_mul_log.2 (Set.mem_Ici.mpr hx) (Set.mem_Ici.mpr hy) (show (0 : ℝ) ≤ 1 / 2 by norm_num)
    (show (0 : ℝ) ≤ 1 / 2 by norm_num) (by norm_num)
  simp only [smul_eq_mul] at h
  rw [klTerm_eq hx hy]
  unfold DownBeat.jsTerm
  linarith

theorem klTerm_eq_zero {x y : ℝ} (hx : 0 ≤ x) (hy : 0 ≤ y) : klTerm x y = 0 ↔ x = y := by
  constructor
  · intro h0
    by_contra hne
    have h := Real.strictConvexOn_mul_log.2 (Set.mem_Ici.mpr hx) (Set.mem_Ici.mpr hy) hne (show (0 : ℝ) < 1 / 2 by norm_num)
      (show (0 : ℝ) < 1 / 2 by norm_num) (by norm_num)
    simp only [smul_eq_mul] at h
    rw [klTerm_eq hx hy] at h0
    unfold DownBeat.jsTerm at h0
    linarith
  · rintro rfl
    rw [klTerm_eq hx hx]
    unfold DownBeat.jsTerm
    rw [show (1 / 2 * x + 1 / 2 * x : ℝ) = x by ring]
    ring

/-- **C58** For all vectors of the same length without negative values, whatever they add up to, the distance used for clustering is not negative. -/
theorem C58_nonneg (a b : List ℝ) (ha : ∀ x ∈ a, 0 ≤ x) (hb : ∀ x ∈ b, 0 ≤ x) (hl : b.length = a.length) :
    ∃ d, kldist realArith a b 0 a.length = some d ∧ 0 ≤ d := by
  refine ⟨_, kldist_ok a b ha hb hl, sum_nonneg fun i hi => ?_⟩
  have hi := mem_range.mp hi
  exact klTerm_nonneg (ha _ (List.mem_of_getElem? (get_getD a i 0 hi))) (hb _ (List.mem_of_getElem? (get_getD b i 0 (by omega))))

/-- **C58** It is zero exactly between equal vectors. -/
theorem C58_zero (a b : List ℝ) (ha : ∀ x ∈ a, 0 ≤ x) (hb : ∀ x ∈ b, 0 ≤ x) (hl : b.length = a.length) :
    kldist realArith a b 0 a.length = some 0 ↔ a = b := by
  rw [kldist_ok a b ha hb hl, Option.some_inj]
  have hpos : ∀ i, i < a.length → 0 ≤ a.getD i 0 ∧ 0 ≤ b.getD i 0 := fun i hi =>
    ⟨ha _ (List.mem_of_getElem? (get_getD a i 0 hi)), hb _ (List.mem_of_getElem? (get_getD b i 0 (by omega)))⟩
  rw [sum_eq_zero_iff_of_nonneg (fun i hi => klTerm_nonneg (hpos i (mem_range.mp hi)).1 (hpos i (mem_range.mp hi)).2)]
  constructor
  · intro h
    refine Holds.ext (holds_getD a 0) ((holds_of_length hl 0).congr fun i hi => ?_)
    exact ((klTerm_eq_zero (hpos i hi).1 (hpos i hi).2).mp (h i (mem_range.mpr hi))).symm
  · rintro rfl i hi
    exact (klTerm_eq_zero (hpos i (mem_range.mp hi)).1 (hpos i (mem_range.mp hi)).1).mpr rfl

/-- **C58** It is the same both ways round. -/
theorem C58_symmetric (a b : List ℝ) (ha : ∀ x ∈ a, 0 ≤ x) (hb : ∀ x ∈ b, 0 ≤ x) (hl : b.length = a.length) :
    kldist realArith a b 0 a.length = kldist realArith b a 0 b.length := by
  rw [kldist_ok a b ha hb hl, kldist_ok b a hb ha hl.symm, hl]
  congr 1
  refine sum_congr rfl fun i _ => ?_
  unfold klTerm
  rw [add_comm (b.getD i 0) (a.getD i 0), add_comm]

/-- Two different histograms. -/
noncomputable example : ∃ d, kldist realArith [1 / 2, 1 / 2, 0] [0, 1 / 5, 2 / 5] 0 3 = some d ∧ 0 ≤ d :=
  C58_nonneg _ _ (by intro x hx; fin_cases hx <;> norm_num) (by intro x hx; fin_cases hx <;> norm_num) rfl

end QM.Segment
