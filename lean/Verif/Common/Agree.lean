import Verif.Common.Mat

/-!
# Runs on different memory

Two runs of the same code are `Same` if both are undefined or both end with related values. Two arrays `Agree` on a set of places if they
have the given size and hold the same there.
-/

namespace QM

variable {α β γ δ : Type}

/-- Both are undefined, or both are defined and related. -/
def Same (R : α → β → Prop) : Option α → Option β → Prop
  | none, none => True
  | some a, some b => R a b
  | _, _ => False

theorem Same.bind {R : α → β → Prop} {Q : γ → δ → Prop} {x : Option α} {y : Option β} {f : α → Option γ} {g : β → Option δ} (h : Same R x y)
    (hf : ∀ a b, R a b → Same Q (f a) (g b)) : Same Q (x.bind f) (y.bind g) := by
  cases x <;> cases y
  · trivial
  · exact h.elim
  · exact h.elim
  · exact hf _ _ h

theorem Same.bindM {R : α → β → Prop} {Q : γ → δ → Prop} {x : Option α} {y : Option β} {f : α → Option γ} {g : β → Option δ} (h : Same R x y)
    (hf : ∀ a b, R a b → Same Q (f a) (g b)) : Same Q (x >>= f) (y >>= g) := Same.bind h hf

/-- The same first step. -/
theorem Same.step {Q : γ → δ → Prop} {x y : Option α} {f : α → Option γ} {g : α → Option δ} (h : x = y) (hf : ∀ a, Same Q (f a) (g a)) :
    Same Q (x >>= f) (y >>= g) := by
  subst h
  cases x
  · trivial
  · exact hf _

theorem Same.mono {R Q : α → β → Prop} {x : Option α} {y : Option β} (h : Same R x y) (hr : ∀ a b, R a b → Q a b) : Same Q x y := by
  cases x <;> cases y
  · trivial
  · exact h.elim
  · exact h.elim
  · exact hr _ _ h

theorem Same.eq {x y : Option α} (h : Same Eq x y) : x = y := by
  cases x <;> cases y
  · rfl
  · exact h.elim
  · exact h.elim
  · exact congrArg some h

theorem Same.of_eq {x y : Option α} (h : x = y) : Same Eq x y := by
  subst h; cases x
  · trivial
  · exact rfl

theorem Same.loop {f : Nat → α → Option α} {g : Nat → β → Option β} (R : Nat → α → β → Prop) {n : Nat} {a : α} {b : β} (h0 : R 0 a b)
    (hs : ∀ i a b, i < n → R i a b → Same (R (i + 1)) (f i a) (g i b)) : Same (R n) (QM.loop n f a) (QM.loop n g b) := by
  induction n with
  | zero => exact h0
  | succ n ih => exact Same.bind (ih fun i a b hi => hs i a b (by omega)) fun a b hr => hs n a b (by omega) hr

/-- The arrays have `n` places and the same values at the places in `P`. -/
def Agree (n : Nat) (P : Nat → Prop) (xs ys : List β) : Prop := xs.length = n ∧ ys.length = n ∧ ∀ i : Nat, P i → xs[i]? = ys[i]?

variable {n m : Nat} {P Q : Nat → Prop} {xs ys : List β}

theorem Agree.refl (h : xs.length = n) : Agree n P xs xs := ⟨h, h, fun _ _ => rfl⟩

theorem Agree.of (hx : xs.length = n) (hy : ys.length = n) : Agree n (fun _ => False) xs ys := ⟨hx, hy, fun _ h => h.elim⟩

theorem Agree.none (h : Agree n P xs ys) : Agree n (fun _ => False) xs ys := ⟨h.1, h.2.1, fun _ h => h.elim⟩

theorem Agree.mono (h : Agree n P xs ys) (hq : ∀ i, i < n → Q i → P i) : Agree n Q xs ys := by
  refine ⟨h.1, h.2.1, fun i hi => ?_⟩
  by_cases hn : i < n
  · exact h.2.2 i (hq i hn hi)
  · rw [List.getElem?_eq_none (by rw [h.1]; omega), List.getElem?_eq_none (by rw [h.2.1]; omega)]

theorem Agree.get (h : Agree n P xs ys) {i : Nat} (hi : i < n → P i) : xs[i]? = ys[i]? := by
  by_cases hn : i < n
  · exact h.2.2 i (hi hn)
  · rw [List.getElem?_eq_none (by rw [h.1]; omega), List.getElem?_eq_none (by rw [h.2.1]; omega)]

theorem Agree.eq (h : Agree n P xs ys) (hp : ∀ i, i < n → P i) : xs = ys := List.ext_getElem? fun i => h.get fun hi => hp i hi

theorem Agree.set (h : Agree n P xs ys) (i : Nat) (v : β) : Agree n (fun j => P j ∨ j = i) (xs.set i v) (ys.set i v) := by
  refine ⟨by simp [h.1], by simp [h.2.1], fun j hj => ?_⟩
  by_cases e : i = j
  · subst e
    by_cases hn : i < n
    · rw [List.getElem?_set_self (by rw [h.1]; exact hn), List.getElem?_set_self (by rw [h.2.1]; exact hn)]
    · rw [List.getElem?_eq_none (by simp [h.1]; omega), List.getElem?_eq_none (by simp [h.2.1]; omega)]
  · rw [List.getElem?_set_ne e, List.getElem?_set_ne e]
    exact h.2.2 j (hj.resolve_right fun e' => e e'.symm)

theorem Agree.wr (h : Agree n P xs ys) (i : Nat) (v : β) (hq : ∀ j, j < n → Q j → P j ∨ j = i) : Same (Agree n Q) (QM.wr xs i v) (QM.wr ys i v) := by
  by_cases hn : i < n
  · rw [wr_some v (by rw [h.1]; exact hn), wr_some v (by rw [h.2.1]; exact hn)]
    exact (h.set i v).mono hq
  · rw [wr_none v (by rw [h.1]; omega), wr_none v (by rw [h.2.1]; omega)]
    trivial

/-- A loop that writes all places in their order. -/
theorem Agree.fill {f : Nat → List β → Option (List β)} (hx : xs.length = n) (hy : ys.length = n)
    (hf : ∀ i xs ys, i < n → Agree n (· < i) xs ys → Same (Agree n (· < i + 1)) (f i xs) (f i ys)) : loop n f xs = loop n f ys :=
  (Same.mono (Same.loop (fun i => Agree n (· < i)) ⟨hx, hy, fun i hi => absurd hi (Nat.not_lt_zero i)⟩ hf) fun _ _ h => h.eq fun _ hi => hi).eq

/-- Matrices of `n` rows of `m` places with the same values at the places in `P`. -/
def Agree2 (n m : Nat) (P : Nat → Nat → Prop) (M M' : List (List β)) : Prop :=
  M.length = n ∧ M'.length = n ∧ ∀ i : Nat, i < n → ∃ r r', M[i]? = some r ∧ M'[i]? = some r' ∧ Agree m (P i) r r'

variable {P2 Q2 : Nat → Nat → Prop} {M M' : List (List β)}

theorem Agree2.of {f g : Nat → Nat → β} (h : Holds2 n m f M) (h' : Holds2 n m g M') : Agree2 n m (fun _ _ => False) M M' :=
  ⟨h.1, h'.1, fun i hi => by
    obtain ⟨r, h1, h2⟩ := h.2 i hi
    obtain ⟨r', h3, h4⟩ := h'.2 i hi
    exact ⟨r, r', h1, h3, Agree.of h2.1 h4.1⟩⟩

theorem Agree2.mono (h : Agree2 n m P2 M M') (hq : ∀ i j, i < n → j < m → Q2 i j → P2 i j) : Agree2 n m Q2 M M' :=
  ⟨h.1, h.2.1, fun i hi => by
    obtain ⟨r, r', h1, h2, h3⟩ := h.2.2 i hi
    exact ⟨r, r', h1, h2, h3.mono fun j hj => hq i j hi hj⟩⟩

theorem Agree2.none (h : Agree2 n m P2 M M') : Agree2 n m (fun _ _ => False) M M' := h.mono fun _ _ _ _ h => h.elim

theorem Agree2.rd (h : Agree2 n m P2 M M') {i j : Nat} (hi : i < n → j < m → P2 i j) : rd2 M i j = rd2 M' i j := by
  unfold rd2
  by_cases hn : i < n
  · obtain ⟨r, r', h1, h2, h3⟩ := h.2.2 i hn
    rw [bind_ok h1, bind_ok h2]
    exact h3.get (hi hn)
  · rw [List.getElem?_eq_none (by rw [h.1]; omega), List.getElem?_eq_none (by rw [h.2.1]; omega)]

theorem Agree2.eq (h : Agree2 n m P2 M M') (hp : ∀ i j, i < n → j < m → P2 i j) : M = M' := by
  refine List.ext_getElem? fun i => ?_
  by_cases hn : i < n
  · obtain ⟨r, r', h1, h2, h3⟩ := h.2.2 i hn
    rw [h1, h2, h3.eq fun j hj => hp i j hn hj]
  · rw [List.getElem?_eq_none (by rw [h.1]; omega), List.getElem?_eq_none (by rw [h.2.1]; omega)]

theorem Agree2.setRow (h : Agree2 n m P2 M M') (i : Nat) {r r' : List β} {R : Nat → Prop} (hr : Agree m R r r') :
    Agree2 n m (fun a b => if a = i then R b else P2 a b) (M.set i r) (M'.set i r') := by
  refine ⟨by simp [h.1], by simp [h.2.1], fun a ha => ?_⟩
  by_cases e : i = a
  · subst e
    exact ⟨r, r', List.getElem?_set_self (by rw [h.1]; exact ha), List.getElem?_set_self (by rw [h.2.1]; exact ha), by simpa using hr⟩
  · obtain ⟨s, s', h1, h2, h3⟩ := h.2.2 a ha
    exact ⟨s, s', by rw [List.getElem?_set_ne e]; exact h1, by rw [List.getElem?_set_ne e]; exact h2, by simpa [Ne.symm e] using h3⟩

theorem Agree2.wrRow (h : Agree2 n m P2 M M') (i : Nat) {r r' : List β} {R : Nat → Prop} (hr : Agree m R r r')
    (hq : ∀ a b, a < n → b < m → Q2 a b → if a = i then R b else P2 a b) : Same (Agree2 n m Q2) (QM.wr M i r) (QM.wr M' i r') := by
  by_cases hn : i < n
  · rw [wr_some _ (by rw [h.1]; exact hn), wr_some _ (by rw [h.2.1]; exact hn)]
    exact (h.setRow i hr).mono hq
  · rw [wr_none _ (by rw [h.1]; omega), wr_none _ (by rw [h.2.1]; omega)]
    trivial

/-- The rows with one index. -/
theorem Agree2.row (h : Agree2 n m P2 M M') (i : Nat) : Same (Agree m (P2 i)) M[i]? M'[i]? := by
  by_cases hn : i < n
  · obtain ⟨r, r', h1, h2, h3⟩ := h.2.2 i hn
    rw [h1, h2]; exact h3
  · rw [List.getElem?_eq_none (by rw [h.1]; omega), List.getElem?_eq_none (by rw [h.2.1]; omega)]; trivial

theorem Agree2.wr (h : Agree2 n m P2 M M') (i j : Nat) (v : β) (hq : ∀ a b, a < n → b < m → Q2 a b → P2 a b ∨ (a = i ∧ b = j)) :
    Same (Agree2 n m Q2) (wr2 M i j v) (wr2 M' i j v) := by
  unfold wr2
  refine Same.bindM (h.row i) fun r r' hr => Same.bindM (hr.wr j v (fun _ _ h => h)) fun s s' hs => ?_
  refine h.wrRow i hs fun a b ha hb hab => ?_
  by_cases e : a = i
  · subst e
    rw [if_pos rfl]
    rcases hq a b ha hb hab with h | ⟨_, h⟩
    · exact Or.inl h
    · exact Or.inr h
  · rw [if_neg e]
    exact (hq a b ha hb hab).resolve_right fun h => e h.1

/-- Two nested loops that write all places in their order. -/
theorem Agree2.fill {f : Nat → Nat → List (List β) → Option (List (List β))} (h : Agree2 n m (fun _ _ => False) M M')
    (hf : ∀ i j M M', i < n → j < m → Agree2 n m (fun a b => a < i ∨ (a = i ∧ b < j)) M M' →
      Same (Agree2 n m (fun a b => a < i ∨ (a = i ∧ b < j + 1))) (f i j M) (f i j M')) :
    loop n (fun i M => loop m (f i) M) M = loop n (fun i M => loop m (f i) M) M' := by
  refine (Same.mono (Same.loop (fun i => Agree2 n m (fun a _ => a < i)) (h.mono fun _ _ _ _ h => absurd h (Nat.not_lt_zero _)) fun i M M' hi hM => ?_)
    fun _ _ h => h.eq fun _ _ hi _ => hi).eq
  refine Same.mono (Same.loop (fun j => Agree2 n m (fun a b => a < i ∨ (a = i ∧ b < j))) (hM.mono fun a b _ _ h => ?_) fun j M M' hj h => hf i j M M' hi hj h)
    fun _ _ h => h.mono fun a b _ hb h => ?_
  · rcases h with h | ⟨_, h⟩
    · exact h
    · exact absurd h (Nat.not_lt_zero _)
  · rcases Nat.lt_succ_iff_lt_or_eq.1 h with h | h
    · exact Or.inl h
    · exact Or.inr ⟨h, hb⟩

end QM
