import Mathlib.Tactic.Abel
import Mathlib.Algebra.BigOperators.Group.Multiset.Basic
import Verif.Heap.Basic

/-!
# Rules for programs that allocate and release memory

`Tri Γ f G Q L`: if the blocks in the list `Γ` are live, `f` runs without undefined behaviour, its result `a` has the property `G a`, the blocks of `Γ` are replaced by `Q a`, blocks with the sizes
`L` are lost, and no other block is touched.
-/

namespace QM.Heap

/-- Blocks with address and size. -/
abbrev Blocks := Multiset (Nat × Nat)

/-- What a program does with the blocks `Γ`. -/
def Tri {α : Type} (Γ : List Blocks) (f : M α) (G : α → Prop) (Q : α → Blocks) (L : Multiset Nat) : Prop :=
  ∀ (h : Heap) (rest : Blocks), h.WF → h.live = Γ.sum + rest →
    ∃ (a : α) (h' : Heap) (lost : Blocks), f h = some (a, h') ∧ h'.WF ∧ G a ∧ h'.live = Q a + lost + rest ∧ lost.map Prod.snd = L

/-- One of the elements of a list, and the others. -/
inductive Take : List Blocks → Blocks → List Blocks → Prop
  | zero {P : Blocks} {Γ : List Blocks} : Take (P :: Γ) P Γ
  | succ {P x : Blocks} {Γ Γ' : List Blocks} : Take Γ P Γ' → Take (x :: Γ) P (x :: Γ')

namespace Tri

variable {α β : Type} {Γ : List Blocks} {f : M α} {g : α → M β} {G : α → Prop} {G' : β → Prop} {Q : α → Blocks} {Q' : β → Blocks} {L L' : Multiset Nat}

theorem sum_take {Γ' : List Blocks} {P : Blocks} (hi : Take Γ P Γ') : Γ.sum = P + Γ'.sum := by
  induction hi with
  | zero => exact List.sum_cons
  | succ _ ih => rw [List.sum_cons, ih, List.sum_cons]; abel

theorem ret {a : α} (g : G a) (q : Γ.sum = Q a) : Tri Γ (pure a) G Q 0 :=
  fun h _ w e => ⟨a, h, 0, rfl, w, g, by rw [e, q]; simp, rfl⟩

/-- A call of a program that needs none of the blocks. -/
theorem call0 (hf : Tri [] f G Q L) (k : ∀ a, G a → Tri (Q a :: Γ) (g a) G' Q' L') : Tri Γ (f >>= g) G' Q' (L + L') := by
  intro h rest w e
  obtain ⟨a, h1, l1, e1, w1, g1, a1, s1⟩ := hf h (Γ.sum + rest) w (by simpa using e)
  obtain ⟨b, h2, l2, e2, w2, g2, a2, s2⟩ := k a g1 h1 (l1 + rest) w1 (by rw [a1, List.sum_cons]; abel)
  exact ⟨b, h2, l1 + l2, step e1 e2, w2, g2, by rw [a2]; abel, by rw [Multiset.map_add, s1, s2]⟩

/-- A call of a program that works on the blocks `Γ[i]`. -/
theorem call {Γ' : List Blocks} {P : Blocks} (hi : Take Γ P Γ') (hf : Tri [P] f G Q L) (k : ∀ a, G a → Tri (Q a :: Γ') (g a) G' Q' L') : Tri Γ (f >>= g) G' Q' (L + L') := by
  intro h rest w e
  obtain ⟨a, h1, l1, e1, w1, g1, a1, s1⟩ := hf h (Γ'.sum + rest) w (by rw [e, sum_take hi]; simp only [List.sum_singleton]; abel)
  obtain ⟨b, h2, l2, e2, w2, g2, a2, s2⟩ := k a g1 h1 (l1 + rest) w1 (by rw [a1, List.sum_cons]; abel)
  exact ⟨b, h2, l1 + l2, step e1 e2, w2, g2, by rw [a2]; abel, by rw [Multiset.map_add, s1, s2]⟩

theorem sizes (e : L' = L) (k : Tri Γ f G Q L) : Tri Γ f G Q L' := e ▸ k

/-- The same for a program that loses nothing. -/
theorem callP {Γ' : List Blocks} {P : Blocks} (hi : Take Γ P Γ') (hf : Tri [P] f G Q 0) (k : ∀ a, G a → Tri (Q a :: Γ') (g a) G' Q' L') : Tri Γ (f >>= g) G' Q' L' :=
  sizes (by simp) (call hi hf k)

theorem call0P (hf : Tri [] f G Q 0) (k : ∀ a, G a → Tri (Q a :: Γ) (g a) G' Q' L') : Tri Γ (f >>= g) G' Q' L' :=
  sizes (by simp) (call0 hf k)

/-- `new` or `malloc`. -/
theorem alloc {s : Nat} {g : Nat → M β} (k : ∀ p, Tri (blk p s :: Γ) (g p) G' Q' L') : Tri Γ (malloc s >>= g) G' Q' L' := by
  intro h rest w e
  obtain ⟨p, h1, e1, w1, a1⟩ := malloc_ok w s
  obtain ⟨b, h2, l2, e2, w2, g2, a2, s2⟩ := k p h1 rest w1 (by rw [a1, e, List.sum_cons]; abel)
  exact ⟨b, h2, l2, step e1 e2, w2, g2, a2, s2⟩

/-- `delete` or `free`. -/
theorem dealloc {Γ' : List Blocks} {p s : Nat} {g : Unit → M β} (hi : Take Γ (blk p s) Γ') (k : Tri Γ' (g ()) G' Q' L') : Tri Γ (free p >>= g) G' Q' L' := by
  intro h rest w e
  obtain ⟨h1, e1, w1, a1⟩ := free_ok (p := p) (s := s) (rest := Γ'.sum + rest) w (by rw [e, sum_take hi]; abel)
  obtain ⟨b, h2, l2, e2, w2, g2, a2, s2⟩ := k h1 rest w1 a1
  exact ⟨b, h2, l2, step e1 e2, w2, g2, a2, s2⟩

/-- An access. -/
theorem access {Γ' : List Blocks} {p s : Nat} {g : Unit → M β} (hi : Take Γ (blk p s) Γ') (k : Tri Γ (g ()) G' Q' L') : Tri Γ (use p >>= g) G' Q' L' := by
  intro h rest w e
  obtain ⟨b, h2, l2, e2, w2, g2, a2, s2⟩ := k h rest w e
  exact ⟨b, h2, l2, step (use_ok (p := p) (s := s) (rest := Γ'.sum + rest) (by rw [e, sum_take hi]; abel)) e2, w2, g2, a2, s2⟩

/-- Blocks that are never mentioned again. -/
theorem forget {Γ' : List Blocks} {P : Blocks} (hi : Take Γ P Γ') (k : Tri Γ' f G Q L) : Tri Γ f G Q (P.map Prod.snd + L) := by
  intro h rest w e
  obtain ⟨b, h2, l2, e2, w2, g2, a2, s2⟩ := k h (P + rest) w (by rw [e, sum_take hi]; abel)
  exact ⟨b, h2, P + l2, e2, w2, g2, by rw [a2]; abel, by rw [Multiset.map_add, s2]⟩

/-- Another list of the same blocks. -/
theorem same {Γ' : List Blocks} (e : Γ.sum = Γ'.sum) (k : Tri Γ' f G Q L) : Tri Γ f G Q L :=
  fun h rest w l => k h rest w (by rw [l, e])

/-- Blocks of an object one by one. -/
theorem parts {l : List Blocks} (k : Tri l f G Q L) : Tri [l.sum] f G Q L := same (by simp) k

theorem post {G₂ : α → Prop} {Q₂ : α → Blocks} (k : Tri Γ f G Q L) (i : ∀ a, G a → G₂ a ∧ Q a = Q₂ a) : Tri Γ f G₂ Q₂ L := by
  intro h rest w e
  obtain ⟨b, h2, l2, e2, w2, g2, a2, s2⟩ := k h rest w e
  exact ⟨b, h2, l2, e2, w2, (i b g2).1, by rw [a2, (i b g2).2], s2⟩

/-- The blocks of `F` stay as they are. -/
theorem frame (k : Tri Γ f G Q L) (F : Blocks) : Tri (F :: Γ) f G (fun a => Q a + F) L := by
  intro h rest w e
  obtain ⟨b, h2, l2, e2, w2, g2, a2, s2⟩ := k h (F + rest) w (by rw [e, List.sum_cons]; abel)
  exact ⟨b, h2, l2, e2, w2, g2, by dsimp only; rw [a2]; abel, s2⟩

theorem bindPure (k : Tri Γ (f >>= pure) G Q L) : Tri Γ f G Q L := by
  intro h rest w e
  obtain ⟨b, h2, l2, e2, r⟩ := k h rest w e
  refine ⟨b, h2, l2, ?_, r⟩
  have : (f >>= pure) h = f h := by
    show (f h).bind _ = f h
    cases f h with
    | none => rfl
    | some x => rfl
  rwa [this] at e2

/-- Sequences are associative. -/
theorem assoc {γ : Type} {f : M γ} {g : γ → M α} {k : α → M β} (t : Tri Γ (f >>= fun x => g x >>= k) G' Q' L') : Tri Γ ((f >>= g) >>= k) G' Q' L' := by
  intro h rest w e
  obtain ⟨b, h2, l2, e2, r⟩ := t h rest w e
  refine ⟨b, h2, l2, ?_, r⟩
  rw [← e2]
  show ((f h).bind _).bind _ = (f h).bind _
  cases f h with
  | none => rfl
  | some x => rfl

theorem pureBind {a : α} (t : Tri Γ (g a) G' Q' L') : Tri Γ (pure a >>= g) G' Q' L' := t

/-- A loop that works on the blocks `P` again and again. -/
theorem loop {n : Nat} {body : Nat → M Unit} {P : Blocks} (hb : ∀ i < n, Tri [P] (body i) (fun _ => True) (fun _ => P) 0) : Tri [P] (each n body) (fun _ => True) (fun _ => P) 0 := by
  induction n with
  | zero => exact ret (a := ()) trivial (by simp)
  | succ n ih => exact call .zero (ih fun i hi => hb i (by omega)) fun _ _ => (hb n (by omega)).same (by simp)

end Tri

/-- `delete` of a pointer that may be null. -/
def del : Option Nat → M Unit
  | none => pure ()
  | some p => free p

/-- The block of a pointer that may be null. -/
def ob (p : Option Nat) (s : Nat) : Blocks := match p with
  | none => 0
  | some p => blk p s

theorem Tri.delete {β : Type} {Γ : List Blocks} {G' : β → Prop} {Q' : β → Blocks} {L' : Multiset Nat} {Γ' : List Blocks} {p : Option Nat} {s : Nat} {g : Unit → M β} (hi : Take Γ (ob p s) Γ')
    (k : Tri Γ' (g ()) G' Q' L') : Tri Γ (del p >>= g) G' Q' L' := by
  cases p with
  | none => exact (k.same (Γ := Γ) (by rw [sum_take hi]; simp [ob]))
  | some p => exact Tri.dealloc hi k

/-- A block that is allocated, used and released. -/
def temp (s : Nat) : M Unit := do
  let p ← malloc s
  use p
  free p

/-- Such blocks one after the other. -/
def temps : List Nat → M Unit
  | [] => pure ()
  | s :: l => do
    temp s
    temps l

theorem temp_ok (s : Nat) : Tri [] (temp s) (fun _ => True) (fun _ => 0) 0 := by
  refine Tri.alloc fun p => Tri.access .zero (Tri.bindPure (Tri.dealloc .zero (Tri.ret trivial rfl)))

theorem temps_ok (l : List Nat) : Tri [] (temps l) (fun _ => True) (fun _ => 0) 0 := by
  induction l with
  | nil => exact Tri.ret trivial rfl
  | cons s l ih => exact Tri.call0 (temp_ok s) fun _ _ => ih.same (by simp)

/-! ### Classes -/

/-- A class: construction (`none` if it ends with an exception), methods and destruction. -/
structure Class (A O Op : Type) where
  new : A → M (Option O)
  step : Op → O → M O
  del : O → M Unit

/-- Calls of methods one after the other. -/
def Class.steps {A O Op : Type} (c : Class A O Op) : List Op → O → M O
  | [], o => pure o
  | x :: xs, o => do
    let o ← c.step x o
    c.steps xs o

/-- The life of an object: it is created, used and destroyed. -/
def Class.life {A O Op : Type} (c : Class A O Op) (a : A) (ops : List Op) : M Unit := do
  match ← c.new a with
  | none => pure ()
  | some o => do
    let o ← c.steps ops o
    c.del o

/-- What is lost when objects are created, used and destroyed: a specification with states `S`. -/
structure Losses (A S Op : Type) where
  init : A → Option S × Multiset Nat
  next : Op → S → S × Multiset Nat
  fin : S → Multiset Nat

/-- Sizes of the blocks lost in the rest of a life. -/
def Losses.rest {A S Op : Type} (l : Losses A S Op) : List Op → S → Multiset Nat
  | [], s => l.fin s
  | x :: xs, s => (l.next x s).2 + l.rest xs (l.next x s).1

/-- Sizes of the blocks lost in a life. -/
def Losses.total {A S Op : Type} (l : Losses A S Op) (a : A) (ops : List Op) : Multiset Nat :=
  match l.init a with
  | (none, n) => n
  | (some s, n) => n + l.rest ops s

/-- Objects of a class lose the blocks of a specification and no other, and nothing else happens to the heap: no block is released twice, none is used after it has been released. -/
def Class.Loses {A O Op S : Type} (c : Class A O Op) (valid : A → Prop) (l : Losses A S Op) : Prop :=
  ∀ (a : A) (ops : List Op) (h : Heap), valid a → h.WF →
    ∃ (lost : Blocks) (h' : Heap), c.life a ops h = some ((), h') ∧ h'.WF ∧ h'.live = lost + h.live ∧ lost.map Prod.snd = l.total a ops

/-- After the life of an object the heap has the same blocks as before. -/
def Class.Clean {A O Op : Type} (c : Class A O Op) (valid : A → Prop) : Prop :=
  ∀ (a : A) (ops : List Op) (h : Heap), valid a → h.WF → ∃ h', c.life a ops h = some ((), h') ∧ h'.WF ∧ h'.live = h.live

/-- A class follows a specification: objects own blocks, `own`, and stand in a relation to states of the specification, `rel`, that methods keep. -/
def Class.Obeys {A O Op S : Type} (c : Class A O Op) (valid : A → Prop) (l : Losses A S Op) : Prop :=
  ∃ (own : O → Blocks) (rel : S → O → Prop),
    (∀ a, valid a → Tri [] (c.new a) (fun o => match (l.init a).1, o with | none, none => True | some s, some o => rel s o | _, _ => False) (fun o => o.elim 0 own) (l.init a).2) ∧
    (∀ x s o, rel s o → Tri [own o] (c.step x o) (rel (l.next x s).1) own (l.next x s).2) ∧
    (∀ s o, rel s o → Tri [own o] (c.del o) (fun _ => True) (fun _ => 0) (l.fin s))

theorem Class.Obeys.loses {A O Op S : Type} {c : Class A O Op} {valid : A → Prop} {l : Losses A S Op} (h : c.Obeys valid l) : c.Loses valid l := by
  obtain ⟨own, rel, hn, hs, hd⟩ := h
  have hr : ∀ (ops : List Op) (s : S) (o : O), rel s o → Tri [own o] (c.steps ops o >>= c.del) (fun _ => True) (fun _ => 0) (l.rest ops s) := by
    intro ops
    induction ops with
    | nil => exact fun s o r => hd s o r
    | cons x xs ih => exact fun s o r => Tri.assoc (Tri.call .zero (hs x s o r) fun o' r' => (ih _ o' r').same (by simp))
  intro a ops h v w
  have : Tri [] (c.life a ops) (fun _ => True) (fun _ => 0) (l.total a ops) := by
    unfold Class.life Losses.total
    rcases e : l.init a with ⟨s, n⟩
    have hn' := hn a v
    rw [e] at hn'
    cases s with
    | none =>
      refine Tri.sizes (by simp) (Tri.call0 hn' (L' := 0) fun o g => ?_)
      cases o with
      | none => exact Tri.ret trivial (by simp)
      | some o => exact g.elim
    | some s =>
      refine Tri.call0 hn' fun o g => ?_
      cases o with
      | none => exact g.elim
      | some o => exact hr ops s o g
  obtain ⟨_, h', lost, e1, w1, _, a1, s1⟩ := this h h.live w (by simp)
  exact ⟨lost, h', e1, w1, by rw [a1]; simp, s1⟩

/-- A specification of classes that lose memory only when their constructor throws: the arguments for which it does, and what is lost then. -/
def Losses.throwing {A Op : Type} (throws : A → Bool) (lost : A → Multiset Nat) : Losses A Unit Op :=
  ⟨fun a => if throws a then (Option.none, lost a) else (some (), 0), fun _ s => (s, 0), fun _ => 0⟩

theorem Losses.throwing_rest {A Op : Type} (throws : A → Bool) (lost : A → Multiset Nat) (ops : List Op) (s : Unit) : (Losses.throwing throws lost).rest ops s = 0 := by
  induction ops with
  | nil => rfl
  | cons x xs ih => rw [Losses.rest, ih]; rfl

theorem Losses.throwing_total {A Op : Type} (throws : A → Bool) (lost : A → Multiset Nat) (a : A) (ops : List Op) :
    (Losses.throwing throws lost : Losses A Unit Op).total a ops = if throws a then lost a else 0 := by
  unfold Losses.total
  cases h : throws a with
  | true => simp [Losses.throwing, h]
  | false =>
    have : (Losses.throwing throws lost : Losses A Unit Op).init a = (some (), 0) := by simp [Losses.throwing, h]
    rw [this]
    dsimp only
    rw [Losses.throwing_rest]
    simp

theorem clean_of_none {A O Op S : Type} {c : Class A O Op} {valid : A → Prop} {l : Losses A S Op} (h : c.Loses valid l) (z : ∀ a ops, l.total a ops = 0) : c.Clean valid := by
  intro a ops g v w
  obtain ⟨lost, h', e, w', i, s⟩ := h a ops g v w
  rw [z a ops, Multiset.map_eq_zero] at s
  exact ⟨h', e, w', by rw [i, s, zero_add]⟩

/-- A class that loses memory only when its constructor throws is clean for the other arguments. -/
theorem Class.Obeys.clean {A O Op : Type} {c : Class A O Op} {valid : A → Prop} {throws : A → Bool} {lost : A → Multiset Nat} (h : c.Obeys valid (Losses.throwing throws lost)) (valid' : A → Prop)
    (v : ∀ a, valid' a → valid a ∧ (throws a = true → lost a = 0)) : c.Clean valid' := by
  intro a ops g va w
  obtain ⟨l, h', e, w', i, s⟩ := h.loses a ops g (v a va).1 w
  rw [Losses.throwing_total] at s
  have : (if throws a then lost a else 0) = 0 := by
    split
    · next t => exact (v a va).2 t
    · rfl
  rw [this, Multiset.map_eq_zero] at s
  exact ⟨h', e, w', by rw [i, s, zero_add]⟩

theorem obeys_of {A O Op : Type} {c : Class A O Op} {valid : A → Prop} (own : O → Blocks) (good : O → Prop) (throws : A → Bool) (lost : A → Multiset Nat)
    (hn : ∀ a, valid a → Tri [] (c.new a) (fun o => match o with | none => throws a = true | some o => throws a = false ∧ good o) (fun o => o.elim 0 own) (if throws a then lost a else 0))
    (hs : ∀ x o, good o → Tri [own o] (c.step x o) good own 0) (hd : ∀ o, good o → Tri [own o] (c.del o) (fun _ => True) (fun _ => 0) 0) : c.Obeys valid (Losses.throwing throws lost) := by
  refine ⟨own, fun _ o => good o, fun a v => ?_, fun x _ o g => hs x o g, fun _ o g => hd o g⟩
  refine Tri.sizes ?_ ((hn a v).post fun o g => ⟨?_, rfl⟩)
  · cases h : throws a <;> simp [Losses.throwing, h]
  · cases o with
    | none =>
      replace g : throws a = true := g
      simp [Losses.throwing, g]
    | some o =>
      replace g : throws a = false ∧ good o := g
      simpa [Losses.throwing, g.1] using g.2

end QM.Heap
