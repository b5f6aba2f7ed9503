import Verif.Heap.Copies
import Verif.Heap.PoolLemmas

/-!
# Lemmas about copies of objects
-/

namespace QM.Heap

/-- Whether an address is live. -/
def Heap.On (h : Heap) (p : Nat) : Prop := p ∈ h.live.map Prod.fst

/-- Programs that make no block live. -/
def Shrinks {α : Type} (f : M α) : Prop := ∀ (h : Heap) (a : α) (h' : Heap), f h = some (a, h') → ∀ p, h'.On p → h.On p
/-- Programs after which a block is not live. -/
def Kills {α : Type} (p : Nat) (f : M α) : Prop := ∀ (h : Heap) (a : α) (h' : Heap), f h = some (a, h') → ¬ h'.On p
/-- Programs that are undefined unless a block is live. -/
def Needs {α : Type} (p : Nat) (f : M α) : Prop := ∀ h : Heap, ¬ h.On p → f h = none

section
variable {α β : Type} {f : M α} {g : α → M β} {p : Nat}

theorem bind_eq {h h' : Heap} {b : β} (e : (f >>= g) h = some (b, h')) : ∃ a h1, f h = some (a, h1) ∧ g a h1 = some (b, h') := by
  rcases ef : f h with _ | ⟨a, h1⟩
  · have : (f >>= g) h = none := by show (f h).bind _ = none; rw [ef]; rfl
    rw [this] at e; cases e
  · exact ⟨a, h1, rfl, (bind_some ef).symm.trans e⟩

theorem bind_none {h : Heap} (e : ∀ a h1, f h = some (a, h1) → g a h1 = none) : (f >>= g) h = none := by
  rcases ef : f h with _ | ⟨a, h1⟩
  · show (f h).bind _ = none; rw [ef]; rfl
  · exact (bind_some ef).trans (e a h1 ef)

theorem Shrinks.ret (a : α) : Shrinks (pure a : M α) := by
  intro h b h' e p hp
  cases e
  exact hp

theorem Shrinks.bind (hf : Shrinks f) (hg : ∀ a, Shrinks (g a)) : Shrinks (f >>= g) := by
  intro h b h' e p hp
  obtain ⟨a, h1, e1, e2⟩ := bind_eq e
  exact hf _ _ _ e1 p (hg a _ _ _ e2 p hp)

theorem shrinks_use (q : Nat) : Shrinks (use q) := by
  intro h a h' e p hp
  unfold use at e
  split at e
  · cases e; exact hp
  · cases e

theorem shrinks_free (q : Nat) : Shrinks (free q) := by
  intro h a h' e p hp
  unfold free at e
  split at e
  · cases e
    obtain ⟨x, hx, rfl⟩ := Multiset.mem_map.1 hp
    exact Multiset.mem_map_of_mem _ (Multiset.mem_of_mem_filter hx)
  · cases e

theorem shrinks_rd {γ : Type} (l : List γ) (i : Nat) : Shrinks (rd l i) := by
  intro h a h' e p hp
  unfold rd at e
  rcases hl : l[i]? with _ | x <;> rw [hl] at e <;> cases e
  exact hp

theorem shrinks_each (n : Nat) (b : Nat → M Unit) (hb : ∀ i, Shrinks (b i)) : Shrinks (each n b) := by
  induction n with
  | zero => exact Shrinks.ret _
  | succ n ih => exact Shrinks.bind ih fun _ => hb n

theorem shrinks_del (q : Option Nat) : Shrinks (del q) := by
  cases q with
  | none => exact Shrinks.ret _
  | some q => exact shrinks_free q

theorem kills_free : Kills p (free p) := by
  intro h a h' e hp
  unfold free at e
  split at e
  · cases e
    obtain ⟨x, hx, hxp⟩ := Multiset.mem_map.1 hp
    exact absurd hxp (by simpa using Multiset.of_mem_filter hx)
  · cases e

theorem Kills.first (hf : Kills p f) (hg : ∀ a, Shrinks (g a)) : Kills p (f >>= g) := by
  intro h b h' e hp
  obtain ⟨a, h1, e1, e2⟩ := bind_eq e
  exact hf _ _ _ e1 (hg a _ _ _ e2 p hp)

theorem Kills.later (hg : ∀ a, Kills p (g a)) : Kills p (f >>= g) := by
  intro h b h' e hp
  obtain ⟨a, h1, -, e2⟩ := bind_eq e
  exact hg a _ _ _ e2 hp

theorem needs_use : Needs p (use p) := fun _ hp => if_neg hp
theorem needs_free : Needs p (free p) := fun _ hp => if_neg hp

theorem Needs.first (hf : Needs p f) : Needs p (f >>= g) := by
  intro h hp
  show (f h).bind _ = none
  rw [hf h hp]; rfl

theorem Needs.later (hs : Shrinks f) (hg : ∀ a, Needs p (g a)) : Needs p (f >>= g) :=
  fun h hp => bind_none fun a h1 e => hg a h1 fun hp' => hp (hs _ _ _ e p hp')

end

/-- Programs that only use and release blocks. -/
macro "shr" : tactic => `(tactic| repeat' first
  | exact shrinks_use _ | exact shrinks_free _ | exact shrinks_del _ | exact shrinks_rd _ _ | exact Shrinks.ret _ | assumption | refine shrinks_each _ _ (fun _ => ?_) | refine Shrinks.bind ?_ (fun _ => ?_))

theorem shrinks_freeRows (n : Nat) (r : Rows) : Shrinks (freeRows n r) := by
  unfold freeRows
  shr

theorem FftReal.shrinks (x : FftReal) : Shrinks x.del := by
  unfold FftReal.del
  shr
theorem Win.shrinks (x : Win) : Shrinks x.del := by
  unfold Win.del
  shr
theorem shrinks_delWin (x : Option Win) : Shrinks (delWin x) := by
  cases x with
  | none => exact Shrinks.ret _
  | some x => exact x.shrinks
theorem Cq.shrinks (x : Cq) : Shrinks x.del := by
  unfold Cq.del
  shr
theorem Dec.shrinks (x : Dec) : Shrinks x.del := by
  unfold Dec.del
  shr
theorem shrinks_delDec (x : Option Dec) : Shrinks (delDec x) := by
  cases x with
  | none => exact Shrinks.ret _
  | some x => exact x.shrinks
theorem Chroma.shrinks (x : Chroma) : Shrinks x.del := by
  have := shrinks_delWin x.window
  have := x.fft.shrinks
  have := x.cq.shrinks
  unfold Chroma.del
  shr
theorem Pv.shrinks (x : Pv) : Shrinks x.del := by
  have := x.fft.shrinks
  unfold Pv.del
  shr
theorem Dfp.shrinks (x : Dfp) : Shrinks x.del := by
  unfold Dfp.del
  shr
theorem Fr.shrinks (x : Fr) : Shrinks x.del := by
  unfold Fr.del
  shr

/-- The second of two destructors needs a block that the first has released. -/
theorem double {α : Type} {f g : M α} {p : Nat} (hf : Kills p f) (hg : Needs p g) (h : Heap) : (do let _ ← f; g) h = none :=
  bind_none fun a h1 e => hg h1 (hf _ _ _ e)

theorem twice_malloc {α β : Type} {s : Nat} {k : Nat → α} {f : M Unit} {g : α → M β} {p : Nat} (hf : Kills p f) (hg : ∀ q, Needs p (g (k q))) (h : Heap) :
    (do let o ← (do let q ← malloc s; pure (k q) : M α); f; g o) h = none := by
  refine bind_none fun o h1 e => ?_
  obtain ⟨q, h2, -, e2⟩ := bind_eq e
  cases e2
  exact bind_none fun a h1 e => hg q h1 (hf _ _ _ e)

end QM.Heap
