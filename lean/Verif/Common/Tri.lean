import Verif.Common.Mat

/-!
# Hoare triples for computations that may fail

`Tri b x P`: if `x` gives a result then the result satisfies `P`, and if `b` holds then `x` does give a result.
-/

namespace QM

variable {α β S : Type} {b : Prop}

/-- Partial correctness, and total correctness under `b`. -/
def Tri (b : Prop) (x : Option α) (P : α → Prop) : Prop :=
  match x with
  | some r => P r
  | none => ¬ b

theorem Tri.pure {P : α → Prop} {r : α} (h : P r) : Tri b (some r) P := h

theorem Tri.bind {x : Option α} {f : α → Option β} {P : α → Prop} {Q : β → Prop} (h : Tri b x P) (hf : ∀ r, P r → Tri b (f r) Q) :
    Tri b (x >>= f) Q := by
  cases x with
  | none => exact h
  | some r => exact hf r h

theorem Tri.mono {x : Option α} {P Q : α → Prop} (h : Tri b x P) (hpq : ∀ r, P r → Q r) : Tri b x Q := by
  cases x with
  | none => exact h
  | some r => exact hpq r h

theorem Tri.partial {x : Option α} {P : α → Prop} (h : Tri b x P) {r : α} (hr : x = some r) : P r := by
  subst hr; exact h

theorem Tri.total {x : Option α} {P : α → Prop} (h : Tri b x P) (hb : b) : ∃ r, x = some r ∧ P r := by
  cases x with
  | none => exact absurd hb h
  | some r => exact ⟨r, rfl, h⟩

theorem Tri.of_total {x : Option α} {P : α → Prop} (h : ∃ r, x = some r ∧ P r) : Tri b x P := by
  obtain ⟨r, h1, h2⟩ := h
  subst h1; exact h2

theorem Tri.loop {n : Nat} {f : Nat → S → Option S} {s : S} (I : Nat → S → Prop) (h0 : I 0 s)
    (hs : ∀ i s, i < n → I i s → Tri b (f i s) (I (i + 1))) : Tri b (loop n f s) (I n) := by
  induction n with
  | zero => exact h0
  | succ n ih =>
    unfold QM.loop
    exact Tri.bind (ih (fun i s hi hp => hs i s (Nat.lt_succ_of_lt hi) hp)) (fun r hr => hs n r (Nat.lt_succ_self n) hr)

theorem Tri.get {xs : List α} {i : Nat} (h : b → i < xs.length) : Tri b xs[i]? (fun v => xs[i]? = some v) := by
  cases hx : xs[i]? with
  | some v => rfl
  | none => intro hb; rw [List.getElem?_eq_getElem (h hb)] at hx; cases hx

theorem Tri.getI {xs : List α} {i : Int} (h0 : b → 0 ≤ i) (h : b → i < xs.length) :
    Tri b (rdI xs i) (fun v => 0 ≤ i ∧ xs[i.toNat]? = some v) := by
  unfold rdI
  by_cases hi : i < 0
  · rw [if_pos hi]; intro hb; have := h0 hb; omega
  · rw [if_neg hi]
    have h' : b → i.toNat < xs.length := by intro hb; have := h hb; omega
    exact (Tri.get h').mono (fun v hv => ⟨by omega, hv⟩)

theorem Tri.wr {xs : List α} {i : Nat} {v : α} (h : b → i < xs.length) :
    Tri b (wr xs i v) (fun ys => i < xs.length ∧ ys = xs.set i v) := by
  by_cases hi : i < xs.length
  · rw [wr_some v hi]; exact ⟨hi, rfl⟩
  · rw [wr_none v (by omega)]; intro hb; exact hi (h hb)

theorem Tri.get_ite {c : Prop} [Decidable c] {x y : Option α} {P : α → Prop} (h1 : c → Tri b x P) (h2 : ¬ c → Tri b y P) :
    Tri b (if c then x else y) P := by
  by_cases h : c
  · rw [if_pos h]; exact h1 h
  · rw [if_neg h]; exact h2 h

end QM
