import Verif.Heap.Pool
import Verif.Heap.ClassesLemmas

/-!
# Lemmas about many objects at a time
-/

namespace QM.Heap

/-- Blocks of the objects that there are. -/
def ownAll {O : Type} (own : O → Blocks) (s : List (Option O)) : Blocks := (s.map fun o => o.elim 0 own).sum

theorem ownAll_set {O : Type} (own : O → Blocks) {s : List (Option O)} {k : Nat} {o : O} (h : s[k]?.join = some o) (o' : Option O) :
    ∃ rest : Blocks, ownAll own s = own o + rest ∧ ownAll own (s.set k o') = o'.elim 0 own + rest := by
  induction s generalizing k with
  | nil => simp at h
  | cons x s ih =>
    cases k with
    | zero =>
      simp only [List.getElem?_cons_zero, Option.join_some] at h
      subst h
      exact ⟨ownAll own s, by simp [ownAll], by simp [ownAll]⟩
    | succ k =>
      simp only [List.getElem?_cons_succ] at h
      obtain ⟨r, e1, e2⟩ := ih h
      refine ⟨x.elim 0 own + r, ?_, ?_⟩
      · show x.elim 0 own + ownAll own s = _
        rw [e1]; abel
      · show x.elim 0 own + ownAll own (s.set k o') = _
        rw [e2]; abel

theorem forall2_join {S O : Type} {rel : S → O → Prop} {ss : List (Option S)} {os : List (Option O)} (h : List.Forall₂ (Option.Rel rel) ss os) (k : Nat) : Option.Rel rel ss[k]?.join os[k]?.join := by
  induction h generalizing k with
  | nil => exact .none
  | cons r _ ih =>
    cases k with
    | zero => simpa using r
    | succ k => simpa using ih k

theorem forall2_set {S O : Type} {rel : S → O → Prop} {ss : List (Option S)} {os : List (Option O)} (h : List.Forall₂ (Option.Rel rel) ss os) (k : Nat) {s : Option S} {o : Option O}
    (r : Option.Rel rel s o) : List.Forall₂ (Option.Rel rel) (ss.set k s) (os.set k o) := by
  induction h generalizing k with
  | nil => exact .nil
  | cons r' h ih =>
    cases k with
    | zero => exact .cons r h
    | succ k => exact .cons r' (ih k)

theorem forall2_snoc {S O : Type} {R : S → O → Prop} {ss : List S} {os : List O} (h : List.Forall₂ R ss os) {s : S} {o : O} (r : R s o) : List.Forall₂ R (ss ++ [s]) (os ++ [o]) := by
  induction h with
  | nil => exact .cons r .nil
  | cons r' _ ih => exact .cons r' ih

section
variable {A O Op S : Type} (c : Class A O Op) (l : Losses A S Op) {os : List (Option O)} {ss : List (Option S)} {k : Nat}

theorem Class.call_none (x : Op) (h : os[k]?.join = none) : c.one (.call k x) os = pure os := by simp only [Class.one, h]
theorem Class.call_some (x : Op) {o : O} (h : os[k]?.join = some o) : c.one (.call k x) os = (do let o ← c.step x o; pure (os.set k (some o))) := by simp only [Class.one, h]
theorem Class.destroy_none (h : os[k]?.join = none) : c.one (.destroy k) os = pure os := by simp only [Class.one, h]
theorem Class.destroy_some {o : O} (h : os[k]?.join = some o) : c.one (.destroy k) os = (do c.del o; pure (os.set k none)) := by simp only [Class.one, h]
theorem Losses.call_none (x : Op) (h : ss[k]?.join = none) : l.one (.call k x) ss = (ss, 0) := by simp only [Losses.one, h]
theorem Losses.call_some (x : Op) {s : S} (h : ss[k]?.join = some s) : l.one (.call k x) ss = (ss.set k (some (l.next x s).1), (l.next x s).2) := by simp only [Losses.one, h]
theorem Losses.destroy_none (h : ss[k]?.join = none) : l.one (.destroy k) ss = (ss, 0) := by simp only [Losses.one, h]
theorem Losses.destroy_some {s : S} (h : ss[k]?.join = some s) : l.one (.destroy k) ss = (ss.set k none, l.fin s) := by simp only [Losses.one, h]

end

section
variable {A O Op S : Type} {c : Class A O Op} {valid : A → Prop} {l : Losses A S Op} {own : O → Blocks} {rel : S → O → Prop}

theorem one_ok
    (hn : ∀ a, valid a → Tri [] (c.new a) (fun o => match (l.init a).1, o with | none, none => True | some s, some o => rel s o | _, _ => False) (fun o => o.elim 0 own) (l.init a).2)
    (hs : ∀ x s o, rel s o → Tri [own o] (c.step x o) (rel (l.next x s).1) own (l.next x s).2)
    (hd : ∀ s o, rel s o → Tri [own o] (c.del o) (fun _ => True) (fun _ => 0) (l.fin s))
    (x : PoolOp A Op) (v : x.Valid valid) (ss : List (Option S)) (os : List (Option O)) (r : List.Forall₂ (Option.Rel rel) ss os) :
    Tri [ownAll own os] (c.one x os) (List.Forall₂ (Option.Rel rel) (l.one x ss).1) (ownAll own) (l.one x ss).2 := by
  cases x with
  | create a =>
    refine Tri.sizes (L := (l.init a).2 + 0) (by simp [Losses.one]) (Tri.call0 (hn a v) fun o g => Tri.ret ?_ ?_)
    · refine forall2_snoc r ?_
      rcases e : (l.init a).1 with _ | s <;> rw [e] at g <;> rcases o with _ | o
      · exact .none
      · exact absurd g id
      · exact absurd g id
      · exact .some g
    · simp [ownAll, add_comm]
  | call k y =>
    have hk := forall2_join r k
    rcases e : os[k]?.join with _ | o
    · rw [e] at hk
      rcases e' : ss[k]?.join with _ | s
      · rw [c.call_none y e, l.call_none y e']
        exact Tri.ret r (by simp)
      · rw [e'] at hk; cases hk
    · rw [e] at hk
      rcases e' : ss[k]?.join with _ | s
      · rw [e'] at hk; cases hk
      · rw [e'] at hk
        replace hk : rel s o := by cases hk; assumption
        rw [c.call_some y e, l.call_some y e']
        obtain ⟨rest, e1, -⟩ := ownAll_set own e none
        refine Tri.same (Γ' := [own o, rest]) (by simp [e1]) ?_
        refine Tri.sizes (by rw [add_zero]) (Tri.call (L' := 0) .zero (hs y s o hk) fun o' g => Tri.ret (forall2_set r k (.some g)) ?_)
        obtain ⟨rest', e2, e3⟩ := ownAll_set own e (some o')
        have : rest = rest' := by
          have := e1.symm.trans e2
          exact add_left_cancel this
        rw [e3, this]
        simp
  | destroy k =>
    have hk := forall2_join r k
    rcases e : os[k]?.join with _ | o
    · rw [e] at hk
      rcases e' : ss[k]?.join with _ | s
      · rw [c.destroy_none e, l.destroy_none e']
        exact Tri.ret r (by simp)
      · rw [e'] at hk; cases hk
    · rw [e] at hk
      rcases e' : ss[k]?.join with _ | s
      · rw [e'] at hk; cases hk
      · rw [e'] at hk
        replace hk : rel s o := by cases hk; assumption
        rw [c.destroy_some e, l.destroy_some e']
        obtain ⟨rest, e1, e3⟩ := ownAll_set own e none
        refine Tri.same (Γ' := [own o, rest]) (by simp [e1]) ?_
        refine Tri.sizes (by rw [add_zero]) (Tri.call (L' := 0) .zero (hd s o hk) fun _ _ => Tri.ret (forall2_set r k .none) ?_)
        rw [e3]
        simp

theorem program_ok
    (hn : ∀ a, valid a → Tri [] (c.new a) (fun o => match (l.init a).1, o with | none, none => True | some s, some o => rel s o | _, _ => False) (fun o => o.elim 0 own) (l.init a).2)
    (hs : ∀ x s o, rel s o → Tri [own o] (c.step x o) (rel (l.next x s).1) own (l.next x s).2)
    (hd : ∀ s o, rel s o → Tri [own o] (c.del o) (fun _ => True) (fun _ => 0) (l.fin s))
    (xs : List (PoolOp A Op)) (v : ∀ x ∈ xs, x.Valid valid) (ss : List (Option S)) (os : List (Option O)) (r : List.Forall₂ (Option.Rel rel) ss os) :
    Tri [ownAll own os] (c.program xs os) (List.Forall₂ (Option.Rel rel) (l.program xs ss).1) (ownAll own) (l.program xs ss).2 := by
  induction xs generalizing ss os with
  | nil => exact Tri.ret r (by simp)
  | cons x xs ih =>
    refine Tri.call .zero (one_ok hn hs hd x (v x (by simp)) ss os r) fun os' r' => ?_
    exact ih (fun y hy => v y (by simp [hy])) _ _ r'

end

theorem family_obeys {ι : Type} [DecidableEq ι] {A O S Op : ι → Type} {c : ∀ i, Class (A i) (O i) (Op i)} {valid : ∀ i, A i → Prop} {l : ∀ i, Losses (A i) (S i) (Op i)}
    (h : ∀ i, (c i).Obeys (valid i) (l i)) : (Class.family c).Obeys (fun a => valid a.1 a.2) (Losses.family l) := by
  choose own rel hn hs hd using h
  refine ⟨fun o => own o.1 o.2, fun s o => ∃ e : s.1 = o.1, rel o.1 (e ▸ s.2) o.2, ?_, ?_, ?_⟩
  · rintro ⟨i, a⟩ v
    refine Tri.sizes (L := ((l i).init a).2 + 0) (by simp [Losses.family]) (Tri.call0 (hn i a v) fun o g => Tri.ret ?_ ?_)
    · dsimp only [Losses.family]
      rcases e : ((l i).init a).1 with _ | s <;> rw [e] at g <;> rcases o with _ | o
      · trivial
      · exact absurd g id
      · exact absurd g id
      · exact ⟨rfl, g⟩
    · cases o <;> simp
  · rintro ⟨j, x⟩ ⟨i, s⟩ ⟨i', o⟩ ⟨e, r⟩
    dsimp only at e
    subst e
    dsimp only [Class.family, Losses.family]
    by_cases hji : j = i
    · subst hji
      rw [dif_pos rfl, dif_pos rfl]
      exact Tri.sizes (by rw [add_zero]) (Tri.call (L' := 0) .zero (hs _ x s o r) fun y g => Tri.ret ⟨rfl, g⟩ (by simp))
    · rw [dif_neg hji]
      have hx : (if h : j = i then (⟨i, ((l i).next (h ▸ x) s).1⟩, ((l i).next (h ▸ x) s).2) else (⟨i, s⟩, 0) : (Σ i, S i) × Multiset Nat) = (⟨i, s⟩, 0) := dif_neg hji
      rw [hx]
      exact Tri.ret ⟨rfl, r⟩ (by simp)
  · rintro ⟨i, s⟩ ⟨i', o⟩ ⟨e, r⟩
    dsimp only at e
    subst e
    exact hd i s o r

theorem library_obeys (so : Sizes) (nb : Nat) : (library so nb).Obeys libraryValid (libraryLosses so) := by
  refine family_obeys fun i => ?_
  cases i with
  | fft => exact fft_obeys so
  | fftReal => exact fftReal_obeys so
  | window => exact window_obeys so
  | constantQ => exact constantQ_obeys so
  | chromagram => exact chromagram_obeys so
  | decimator => exact decimator_obeys so
  | decimatorB => exact decimatorB_obeys so
  | phaseVocoder => exact phaseVocoder_obeys so
  | detectionFunction => exact detectionFunction_obeys so
  | dfProcess => exact dfProcess_obeys so
  | peakPicking => exact peakPicking_obeys so
  | framer => exact framer_obeys
  | tempoTrack => exact tempoTrack_obeys so
  | mfcc => exact mfcc_obeys so
  | downBeat => exact downBeat_obeys so
  | key => exact key_obeys so
  | segmenter => exact seg_obeys so nb

end QM.Heap
