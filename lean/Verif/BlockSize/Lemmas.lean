import Verif.BlockSize.Model

/-!
# What the static variables of `ilaenv_` can hold
-/

namespace QM.BlockSize

open Prog Cell

/-- The values that a variable can have once it has been written. -/
def can : Cell → List Nat
  | subnam 0 => ['D'.toNat]
  | subnam 1 => ['G'.toNat, 'T'.toNat]
  | subnam 2 => ['E'.toNat, 'R'.toNat]
  | subnam 3 => ['T'.toNat]
  | subnam 4 => ['R'.toNat]
  | subnam 5 => ['F'.toNat, 'I'.toNat]
  | c1 => ['D'.toNat]
  | c2 0 => ['G'.toNat, 'T'.toNat]
  | c2 1 => ['E'.toNat, 'R'.toNat]
  | c3 0 => ['T'.toNat]
  | c3 1 => ['R'.toNat]
  | c3 2 => ['F'.toNat, 'I'.toNat]
  | c4 0 => ['R'.toNat]
  | c4 1 => ['F'.toNat, 'I'.toNat]
  | ic => ['D'.toNat]
  | iz => [90]
  | nb => [1, 64]
  | nbmin => [2]
  | sname => [1]
  | cname => [0]
  | _ => []

/-- Whatever other threads write, the rest of a call reads only variables of `w` or such as it has written itself, writes only such values and ends with
one of `R`. -/
def Safe (R : List Nat) : List Cell → Prog → Prop
  | _, .ret v => v ∈ R
  | w, .load c k => c ∈ w ∧ ∀ v ∈ can c, Safe R w (k v)
  | w, .store c v k => v ∈ can c ∧ Safe R (c :: w) k
  | _, .other => False

variable {R : List Nat} {w : List Cell}

/-- Can a comparison succeed? -/
def may : List Cell → List Char → Bool
  | c :: cs, x :: xs => decide (x.toNat ∈ can c) && ((can c).any (· ≠ x.toNat) || may cs xs)
  | _, _ => true

theorem safe_cmp {t e : Prog} : ∀ {cs : List Cell} {xs : List Char}, (∀ c ∈ cs, c ∈ w) → (may cs xs = true → Safe R w t) → Safe R w e → Safe R w (cmp cs xs t e)
  | [], _, _, h2, _ => by
    unfold cmp
    exact h2 rfl
  | c :: cs, [], _, h2, _ => h2 rfl
  | c :: cs, x :: xs, h1, h2, h3 => by
    refine ⟨h1 c (by simp), fun v hv => ?_⟩
    dsimp only
    split
    · next hx =>
      subst hx
      exact safe_cmp (fun d hd => h1 d (by simp [hd])) (fun h => h2 (by simp [may, hv, h])) h3
    · next hx =>
      refine ⟨h1 c (by simp), fun u hu => ?_⟩
      dsimp only
      split
      · next hy =>
        subst hy
        refine h2 ?_
        unfold may
        rw [Bool.and_eq_true, Bool.or_eq_true]
        exact ⟨decide_eq_true hu, Or.inl (List.any_eq_true.2 ⟨v, hv, decide_eq_true hx⟩)⟩
      · exact h3

theorem safe_cmpAny {t e : Prog} {cs : List Cell} : ∀ {ss : List String}, (∀ c ∈ cs, c ∈ w) → (ss.any (fun s => may cs s.toList) = true → Safe R w t) → Safe R w e →
    Safe R w (cmpAny cs ss t e)
  | [], _, _, h3 => h3
  | s :: ss, h1, h2, h3 =>
    safe_cmp h1 (fun h => h2 (by simp [h])) (safe_cmpAny h1 (fun h => h2 (by rw [List.any_cons, h, Bool.or_true])) h3)

theorem safe_test {c : Cell} {p : Nat → Bool} {t e : Prog} (hc : c ∈ w) (ht : (can c).any p = true → Safe R w t) (he : (can c).any (fun v => !p v) = true → Safe R w e) :
    Safe R w (test c p t e) := by
  refine ⟨hc, fun v hv => ?_⟩
  dsimp only
  split
  · next h => exact ht (List.any_eq_true.2 ⟨v, hv, h⟩)
  · next h => exact he (List.any_eq_true.2 ⟨v, hv, by simpa using h⟩)

theorem safe_setBoth {c : Cell} {a b : Nat} (hs : sname ∈ w) (ha : a ∈ can c) (hr : ∀ v ∈ can c, v ∈ R) : Safe R w (setBoth c a b) := by
  refine safe_test hs (fun _ => ⟨ha, by simp, hr⟩) fun h => ?_
  exact absurd h (by decide)

theorem safe_set {c : Cell} {a : Nat} (ha : a ∈ can c) (hr : ∀ v ∈ can c, v ∈ R) : Safe R w (set c a) := ⟨ha, by simp, hr⟩

theorem safe_end {c : Cell} (hc : c ∈ w) (hr : ∀ v ∈ can c, v ∈ R) : Safe R w (.load c .ret) := ⟨hc, hr⟩

theorem safe_blockSize {n2 n4 : Int} (hn : n4 = -1) (hs2 : ∀ c ∈ s2, c ∈ w) (hs3 : ∀ c ∈ s3, c ∈ w) (hs : sname ∈ w) (hc : cname ∈ w) :
    Safe [1, 64] w (blockSize n2 n4) := by
  subst hn
  refine ⟨by decide, ?_⟩
  have hnb : nb ∈ nb :: w := by simp
  replace hs2 : ∀ c ∈ s2, c ∈ nb :: w := fun c h => by simp [hs2 c h]
  replace hs3 : ∀ c ∈ s3, c ∈ nb :: w := fun c h => by simp [hs3 c h]
  replace hs : sname ∈ nb :: w := by simp [hs]
  replace hc : cname ∈ nb :: w := by simp [hc]
  have no : ∀ {p : Prop}, false = true → p := fun h => absurd h (by decide)
  have e : Safe [1, 64] (nb :: w) (.load nb .ret) := safe_end hnb (by decide)
  have u : Safe [1, 64] (nb :: w) (blockSize.afterUN n2 (-1)) := by
    refine safe_cmp hs2 (fun _ => safe_cmp hs3 (fun _ => ?_) e) ?_
    · rw [if_pos (by decide)]
      exact safe_setBoth hs (by decide) (by decide)
    refine safe_cmp hs2 no ?_
    refine safe_cmp hs2 (fun _ => safe_cmp hs3 (fun _ => safe_setBoth hs (by decide) (by decide)) e) ?_
    refine safe_cmp hs2 no ?_
    exact safe_test hs (fun _ => safe_cmp hs2 no e) no
  have o : Safe [1, 64] (nb :: w) (blockSize.afterOR n2 (-1)) := safe_test hc no fun _ => u
  have a : Safe [1, 64] (nb :: w) (blockSize.afterHE n2 (-1)) := safe_test hs (fun _ => safe_cmp hs2 no o) no
  refine safe_cmp hs2 (fun _ => ?_) ?_
  · refine safe_cmp hs3 (fun _ => safe_setBoth hs (by decide) (by decide)) ?_
    refine safe_cmpAny hs3 no ?_
    refine safe_cmp hs3 no ?_
    refine safe_cmp hs3 no ?_
    exact safe_cmp hs3 (fun _ => safe_setBoth hs (by decide) (by decide)) e
  · refine safe_cmp hs2 no ?_
    refine safe_cmp hs2 no ?_
    exact safe_test hc no fun _ => a

theorem safe_minSize (hs2 : ∀ c ∈ s2, c ∈ w) (hs3 : ∀ c ∈ s3, c ∈ w) (hs : sname ∈ w) (hc : cname ∈ w) :
    Safe [2] w minSize := by
  refine ⟨by decide, ?_⟩
  have hnb : nbmin ∈ nbmin :: w := by simp
  replace hs2 : ∀ c ∈ s2, c ∈ nbmin :: w := fun c h => by simp [hs2 c h]
  replace hs3 : ∀ c ∈ s3, c ∈ nbmin :: w := fun c h => by simp [hs3 c h]
  replace hs : sname ∈ nbmin :: w := by simp [hs]
  replace hc : cname ∈ nbmin :: w := by simp [hc]
  have no : ∀ {p : Prop}, false = true → p := fun h => absurd h (by decide)
  have e : Safe [2] (nbmin :: w) (.load nbmin .ret) := safe_end hnb (by decide)
  have o : Safe [2] (nbmin :: w) minSize.afterOR := safe_test hc no fun _ => e
  have a : Safe [2] (nbmin :: w) minSize.afterHE := safe_test hs (fun _ => safe_cmp hs2 no o) no
  refine safe_cmp hs2 (fun _ => ?_) ?_
  · refine safe_cmpAny hs3 no ?_
    refine safe_cmp hs3 no ?_
    refine safe_cmp hs3 no ?_
    exact safe_cmp hs3 (fun _ => safe_setBoth hs (by decide) (by decide)) e
  · refine safe_cmp hs2 no ?_
    exact safe_test hc no fun _ => a

theorem safe_copyText : ∀ {w : List Cell} {cs : List Cell} {xs : List Char} {k : Prog}, cs.length = xs.length → (∀ p ∈ cs.zip xs, p.2.toNat ∈ can p.1) →
    Safe R (cs.reverse ++ w) k → Safe R w (copyText cs xs k)
  | _, [], [], _, _, _, h => h
  | _, [], _ :: _, _, h, _, _ => by simp at h
  | _, _ :: _, [], _, h, _, _ => by simp at h
  | _, c :: cs, x :: xs, k, hl, h1, h2 => by
    refine ⟨h1 (c, x) (by simp), safe_copyText (by simpa using hl) (fun p hp => h1 p (by simp [hp])) ?_⟩
    rwa [List.reverse_cons, List.append_assoc] at h2

theorem safe_copy : ∀ {w : List Cell} {cs ds : List Cell} {k : Prog}, cs.length = ds.length → (∀ p ∈ cs.zip ds, can p.2 = can p.1) → (∀ d ∈ ds, d ∈ w) →
    Safe R (cs.reverse ++ w) k → Safe R w (copy cs ds k)
  | _, [], [], _, _, _, _, h => h
  | _, [], _ :: _, _, h, _, _, _ => by simp at h
  | _, _ :: _, [], _, h, _, _, _ => by simp at h
  | w, c :: cs, d :: ds, k, hl, h1, h2, h3 => by
    refine ⟨h2 d (by simp), fun v hv => ⟨by rw [← h1 (c, d) (by simp)]; exact hv, ?_⟩⟩
    refine safe_copy (by simpa using hl) (fun p hp => h1 p (by simp [hp])) (fun e he => by simp [h2 e (by simp [he])]) ?_
    rwa [List.reverse_cons, List.append_assoc] at h3

theorem safe_ilaenv {ispec : Nat} {name : String} {n2 n4 : Int} (hl : name.toList.length = 6) (hn : ∀ p ∈ s6.zip name.toList, p.2.toNat ∈ can p.1)
    (h : ∀ w, (∀ c ∈ s2, c ∈ w) → (∀ c ∈ s3, c ∈ w) → sname ∈ w → cname ∈ w →
      Safe R w (if ispec = 1 then blockSize n2 n4 else if ispec = 2 then minSize else .other)) :
    Safe R [] (ilaenv ispec name n2 n4) := by
  have no : ∀ {p : Prop}, false = true → p := fun h => absurd h (by decide)
  have rest : ∀ w, (∀ c ∈ s6, c ∈ w) → sname ∈ w → cname ∈ w → Safe R w (ilaenv.rest ispec n2 n4) := by
    intro w h6 hs hc
    refine safe_copy rfl (by decide) (fun d hd => h6 d ?_) ?_
    · revert hd; revert d; decide
    refine safe_copy rfl (by decide) (fun d hd => ?_) ?_
    · have : d ∈ s6 := by revert hd; revert d; decide
      simp [h6 d this]
    refine safe_copy rfl (by decide) (fun d hd => ?_) ?_
    · have : d ∈ s3.reverse := by revert hd; revert d; decide
      exact List.mem_append_left _ this
    refine h _ (fun c hc => ?_) (fun c hc => ?_) ?_ ?_
    · exact List.mem_append_right _ (List.mem_append_right _ (List.mem_append_left _ (List.mem_reverse.2 hc)))
    · exact List.mem_append_right _ (List.mem_append_left _ (List.mem_reverse.2 hc))
    · exact List.mem_append_right _ (List.mem_append_right _ (List.mem_append_right _ hs))
    · exact List.mem_append_right _ (List.mem_append_right _ (List.mem_append_right _ hc))
  have complex : ∀ w, (∀ c ∈ s6, c ∈ w) → c1 ∈ w → sname ∈ w → Safe R w (ilaenv.complex ispec n2 n4) := by
    intro w h6 h1 hs
    refine safe_test h1 no fun _ => safe_test h1 no fun _ => ⟨by decide, ?_⟩
    exact safe_test (by simp) no fun _ => safe_test (by simp [hs]) (fun _ => rest _ (fun c h => by simp [h6 c h]) (by simp [hs]) (by simp)) no
  have kind : ∀ w, (∀ c ∈ s6, c ∈ w) → Safe R w (ilaenv.kind ispec n2 n4) := by
    intro w h6
    refine ⟨h6 _ (by decide), fun v hv => ⟨hv, ?_⟩⟩
    refine safe_test (by simp) no fun _ => safe_test (by simp) (fun _ => ⟨by decide, ?_⟩) no
    exact complex _ (fun c h => by simp [h6 c h]) (by simp) (by simp)
  refine safe_copyText (by rw [hl]; rfl) hn ⟨by decide, fun v hv => ⟨hv, by decide, ?_⟩⟩
  refine safe_test (by simp) (fun _ => safe_test (by simp) no fun _ => kind _ fun c h => ?_) no
  exact List.mem_cons_of_mem _ (List.mem_cons_of_mem _ (List.mem_append_left _ (List.mem_reverse.2 h)))

/-- The answers that a query can have. -/
def Query.answers : Query → List Nat
  | .getriMin => [2]
  | _ => [1, 64]

theorem safe_query (q : Query) : Safe q.answers [] q.prog := by
  cases q with
  | getrf n => exact safe_ilaenv rfl (by decide) fun w h2 h3 hs hc => safe_blockSize rfl h2 h3 hs hc
  | getri => exact safe_ilaenv rfl (by decide) fun w h2 h3 hs hc => safe_blockSize rfl h2 h3 hs hc
  | getriMin => exact safe_ilaenv rfl (by decide) fun w h2 h3 hs hc => safe_minSize h2 h3 hs hc
  | trtri => exact safe_ilaenv rfl (by decide) fun w h2 h3 hs hc => safe_blockSize rfl h2 h3 hs hc

/-- The invariant. -/
def Inv (y : Sys) : Prop := ∀ t ∈ y.th, ∃ w, Safe t.query.answers w t.left ∧ ∀ c ∈ w, y.mem c ∈ can c

theorem mem_set {α : Type} {l : List α} {i : Nat} {a b : α} (h : b ∈ l.set i a) : b = a ∨ b ∈ l := (List.mem_or_eq_of_mem_set h).symm

theorem inv_next {y y' : Sys} {o : Op} (h : Inv y) (hn : y.next o = some y') : Inv y' := by
  cases o with
  | ask i q =>
    have hn' : ((y.th[i]?).bind fun t => match t.left with
      | .ret _ => some (⟨y.mem, y.th.set i ⟨q, q.prog⟩⟩ : Sys)
      | _ => none) = some y' := hn
    cases ht : y.th[i]? with
    | none => rw [ht] at hn'; exact absurd hn' (by simp)
    | some t =>
      rw [ht, Option.bind_some] at hn'
      split at hn'
      · cases hn'
        intro u hu
        rcases mem_set hu with rfl | hu
        · exact ⟨[], safe_query q, by simp⟩
        · exact h u hu
      · exact absurd hn' (by simp)
  | run i =>
    have hn' : ((y.th[i]?).bind fun t => (t.left.step y.mem).bind fun r => some (⟨r.2, y.th.set i ⟨t.query, r.1⟩⟩ : Sys)) = some y' := hn
    cases ht : y.th[i]? with
    | none => rw [ht] at hn'; exact absurd hn' (by simp)
    | some t =>
      rw [ht, Option.bind_some] at hn'
      obtain ⟨w, hs, hw⟩ := h t (List.mem_of_getElem? ht)
      cases hp : t.left with
      | ret v => rw [hp] at hn'; exact absurd hn' (by simp [Prog.step])
      | other => rw [hp] at hn'; exact absurd hn' (by simp [Prog.step])
      | load c k =>
        rw [hp] at hn' hs
        cases hn'
        intro u hu
        rcases mem_set hu with rfl | hu
        · exact ⟨w, hs.2 _ (hw c hs.1), hw⟩
        · exact h u hu
      | store c v k =>
        rw [hp] at hn' hs
        cases hn'
        have key : ∀ d, y.mem d ∈ can d → y.mem.put c v d ∈ can d := by
          intro d hd
          unfold Mem.put
          split
          · next e => subst e; exact hs.1
          · exact hd
        intro u hu
        rcases mem_set hu with rfl | hu
        · refine ⟨c :: w, hs.2, fun d hd => ?_⟩
          rcases List.mem_cons.1 hd with rfl | hd
          · show y.mem.put d v d ∈ can d
            rw [Mem.put, if_pos rfl]
            exact hs.1
          · exact key d (hw d hd)
        · obtain ⟨w', hs', hw'⟩ := h u hu
          exact ⟨w', hs', fun d hd => key d (hw' d hd)⟩

theorem inv_exec {ops : List Op} : ∀ {y y' : Sys}, Inv y → y.exec ops = some y' → Inv y' := by
  induction ops with
  | nil => intro y y' h he; cases he; exact h
  | cons o ops ih =>
    intro y y' h he
    have he' : (y.next o).bind (fun y => y.exec ops) = some y' := he
    cases hn : y.next o with
    | none => rw [hn] at he'; exact absurd he' (by simp)
    | some z => rw [hn] at he'; exact ih (inv_next h hn) he'

theorem inv_start (qs : List Query) : Inv (Sys.start qs) := by
  intro t ht
  obtain ⟨q, -, rfl⟩ := List.mem_map.1 ht
  exact ⟨[], safe_query q, by simp⟩

end QM.BlockSize
