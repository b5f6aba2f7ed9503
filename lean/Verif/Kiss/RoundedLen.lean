import Verif.Kiss.Rounded

/-!
# The rounded transform never changes the length of its output array

For any plan and any input, however large.
-/

namespace QM.Kiss

open Complex

/-- Every list the computation can return has `n` elements. -/
def Len {α : Type} (n : Nat) (o : Option (List α)) : Prop := ∀ b, o = some b → b.length = n

theorem len_wr {α : Type} {n : Nat} {b : List α} (i : Nat) (v : α) (h : b.length = n) : Len n (wr b i v) := by
  intro b' hb
  unfold wr at hb
  split_ifs at hb
  cases hb
  simpa using h

theorem len_bind {α β : Type} {n : Nat} {o : Option β} {f : β → Option (List α)} (h : ∀ x, Len n (f x)) : Len n (o.bind f) := by
  intro b hb
  obtain ⟨x, _, hx⟩ := Option.bind_eq_some_iff.mp hb
  exact h x b hx

theorem len_bind_wr {α β : Type} {n m : Nat} {b : List β} (i : Nat) (v : β) {f : List β → Option (List α)} (hb : b.length = m)
    (h : ∀ b', b'.length = m → Len n (f b')) : Len n ((wr b i v).bind f) := by
  intro c hc
  obtain ⟨x, hx, hx'⟩ := Option.bind_eq_some_iff.mp hc
  exact h x (len_wr i v hb x hx) c hx'

theorem len_bind_len {α β : Type} {n m : Nat} {o : Option (List β)} {f : List β → Option (List α)} (ho : Len m o)
    (h : ∀ b', b'.length = m → Len n (f b')) : Len n (o.bind f) := by
  intro c hc
  obtain ⟨x, hx, hx'⟩ := Option.bind_eq_some_iff.mp hc
  exact h x (ho x hx) c hx'

theorem len_none {α : Type} (n : Nat) : Len n (none : Option (List α)) := by intro b hb; cases hb

theorem loop_keeps {S : Type} (P : S → Prop) (f : Nat → S → Option S) (hf : ∀ i s t, P s → f i s = some t → P t) :
    ∀ n s t, P s → loop n f s = some t → P t := by
  intro n
  induction n with
  | zero => intro s t hs h; cases h; exact hs
  | succ n ih =>
    intro s t hs h
    simp only [loop, Option.bind_eq_some_iff] at h
    obtain ⟨a, ha, hw⟩ := h
    exact hf n a t (ih s a hs ha) hw

theorem len_loop {α : Type} {n : Nat} {f : Nat → List α → Option (List α)} (hf : ∀ i s, s.length = n → Len n (f i s))
    (m : Nat) {s : List α} (hs : s.length = n) : Len n (loop m f s) := fun t ht =>
  loop_keeps (fun s => s.length = n) f (fun i s t hs ht => hf i s hs t ht) m s t hs ht

theorem len_doLoop {α : Type} {n : Nat} {f : Nat → List α → Option (List α)} (hf : ∀ i s, s.length = n → Len n (f i s))
    (m : Nat) {s : List α} (hs : s.length = n) : Len n (doLoop m f s) := by
  unfold doLoop
  split_ifs
  · exact len_none n
  · exact len_loop hf _ hs

variable (fl : ℝ → ℝ) (st : Plan)

theorem bfly2_len {n : Nat} (fs m off u : Nat) (b : List ℂ) (hb : b.length = n) : Len n (bfly2BodyF fl st fs m off u b) := by
  unfold bfly2BodyF
  simp only [Option.bind_eq_bind]
  repeat first | exact len_wr _ _ ‹_› | refine len_bind_wr _ _ ‹_› fun b hb => ?_ | refine len_bind fun _ => ?_

theorem bfly3_len {n : Nat} (fs m off u : Nat) (b : List ℂ) (hb : b.length = n) : Len n (bfly3BodyF fl st fs m off u b) := by
  unfold bfly3BodyF
  simp only [Option.bind_eq_bind]
  repeat first | exact len_wr _ _ ‹_› | refine len_bind_wr _ _ ‹_› fun b hb => ?_ | refine len_bind fun _ => ?_

theorem bfly4_len {n : Nat} (fs m off u : Nat) (b : List ℂ) (hb : b.length = n) : Len n (bfly4BodyF fl st fs m off u b) := by
  unfold bfly4BodyF
  simp only [Option.bind_eq_bind]
  repeat first | exact len_wr _ _ ‹_› | refine len_bind_wr _ _ ‹_› fun b hb => ?_ | refine len_bind fun _ => ?_
  split_ifs
  all_goals repeat first | exact len_wr _ _ ‹_› | refine len_bind_wr _ _ ‹_› fun b hb => ?_ | refine len_bind fun _ => ?_

theorem bfly5_len {n : Nat} (fs m off u : Nat) (b : List ℂ) (hb : b.length = n) : Len n (bfly5BodyF fl st fs m off u b) := by
  unfold bfly5BodyF
  repeat first | exact len_wr _ _ ‹_› | refine len_bind_wr _ _ ‹_› fun b hb => ?_ | refine len_bind fun _ => ?_

theorem generic_len {n : Nat} (fs m p off u : Nat) (b : List ℂ) (hb : b.length = n) :
    Len n (genericBodyF fl st fs m p off u b) := by
  unfold genericBodyF
  simp only [Option.bind_eq_bind]
  refine len_bind fun scratch => ?_
  refine len_loop (fun q s hs => ?_) _ hb
  refine len_bind fun _ => len_bind_wr _ _ hs fun b hb => ?_
  intro c hc
  obtain ⟨⟨x, y⟩, hx, hx'⟩ := Option.bind_eq_some_iff.mp hc
  cases hx'
  refine loop_keeps (fun s : List ℂ × Nat => s.1.length = n) _ ?_ _ _ _ (by simpa using hb) hx
  rintro i ⟨s, k⟩ ⟨t, k'⟩ hs ht
  unfold genericInnerF at ht
  simp only [Option.bind_eq_bind, Option.bind_eq_some_iff] at ht
  obtain ⟨_, _, _, _, _, _, w, hw, e⟩ := ht
  cases e
  exact len_wr _ _ hs _ hw

theorem butterfly_len {n : Nat} (fs m p off : Nat) (b : List ℂ) (hb : b.length = n) : Len n (butterflyF fl st fs m p off b) := by
  unfold butterflyF
  split
  · exact len_doLoop (fun u s hs => bfly2_len fl st fs m off u s hs) _ hb
  · exact len_doLoop (fun u s hs => bfly3_len fl st fs m off u s hs) _ hb
  · exact len_doLoop (fun u s hs => bfly4_len fl st fs m off u s hs) _ hb
  · exact len_loop (fun u s hs => bfly5_len fl st fs m off u s hs) _ hb
  · exact len_loop (fun u s hs => generic_len fl st fs m _ off u s hs) _ hb

theorem work_len {n : Nat} (fin : List ℂ) (inStride : Nat) : ∀ (fac : List (Nat × Nat)) (fs foff off : Nat) (b : List ℂ),
    b.length = n → Len n (workF fl st fin inStride fac fs foff off b) := by
  intro fac
  induction fac with
  | nil => intro fs foff off b _; rw [workF]; exact len_none n
  | cons pm rest ih =>
    obtain ⟨p, m⟩ := pm
    intro fs foff off b hb
    rw [workF]
    simp only [Option.bind_eq_bind]
    have hbf : ∀ b : List ℂ, b.length = n → _ := fun b hb => butterfly_len fl st fs m p off b hb
    split_ifs
    · exact len_bind_len (len_doLoop (fun q s hs => len_bind fun _ => len_wr _ _ hs) _ hb) hbf
    · exact len_none n
    · exact len_bind_len (len_doLoop (fun q s hs => ih _ _ _ s hs) _ hb) hbf

/-- `kiss_fft` keeps the length of its output array. -/
theorem fftF_len (fin fout : List ℂ) : Len fout.length (fftF fl st fin fout) := work_len fl st fin 1 st.factors 1 0 0 fout rfl

end QM.Kiss
