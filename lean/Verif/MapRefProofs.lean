import Verif.SignalBProofs
import Verif.SignalBSpec

/-!
# Lemmas for `map_ref!` and `map_mut!`
-/

namespace Verif

variable {α β : Type}

/-! ## `map_ref!`, `map_mut!` -/

theorem pollInputs_eq (w : Waker) (ms : List (MapRef1 α)) :
    pollInputs w ms = (⟨ms.all fun m => (m.poll w).1.done, ms.any fun m => (m.poll w).1.changed⟩,
      ms.map fun m => (m.poll w).2) := by
  induction ms with
  | nil => rfl
  | cons m ms ih => simp [pollInputs, ih, PollResult.merge]

/-- What a poll does with one input. -/
theorem MapRef1.poll_spec (w : Waker) (m : MapRef1 α) (hok : m.signal.Ok) :
    (m.poll w).2.signal.Ok ∧
    (((m.poll w).1 = ⟨false, true⟩ ∧ (∃ a, (m.poll w).2.signal.src.got = m.signal.src.got ++ [a] ∧
        (m.poll w).2.value = some a) ∧ ¬ (m.poll w).2.signal.src.ended) ∨
     ((m.poll w).1 = ⟨true, false⟩ ∧ (m.poll w).2.signal.src.got = m.signal.src.got ∧
        (m.poll w).2.value = m.value ∧ (m.poll w).2.signal.src.ended) ∨
     ((m.poll w).1 = ⟨false, false⟩ ∧ (m.poll w).2.signal.src.got = m.signal.src.got ∧
        (m.poll w).2.value = m.value ∧ ¬ (m.poll w).2.signal.src.ended ∧
        (m.poll w).2.signal.src.armed w)) := by
  obtain ⟨r, i', h1, h2, -, h3, h4⟩ := Inp.poll_full w m.signal hok
  unfold MapRef1.poll
  rw [h1]
  obtain _ | ((_ | b) | _) := r
  · exact ⟨h2, .inr (.inl ⟨rfl, by simpa [itemOf] using h3, rfl, h2.dead.2 h4⟩)⟩
  · exact ⟨h2, .inr (.inl ⟨rfl, by simpa [itemOf] using h3, rfl, h2.dead.2 h4⟩)⟩
  · exact ⟨h2, .inl ⟨rfl, ⟨b, by simpa [itemOf] using h3, rfl⟩, h2.alive h4⟩⟩
  · exact ⟨h2, .inr (.inr ⟨rfl, by simpa [itemOf] using h3, rfl, h2.alive h4.1, h4.2⟩)⟩

theorem inputValues_eq {ms : List (MapRef1 α)} {vs : List α} (h : ms.map (·.value) = vs.map some) :
    inputValues ms = some vs := by
  induction ms generalizing vs with
  | nil => cases vs with
    | nil => rfl
    | cons v vs => simp at h
  | cons m ms ih =>
    cases vs with
    | nil => simp at h
    | cons v vs =>
      simp only [List.map_cons, List.cons.injEq] at h
      simp [inputValues, h.1, ih h.2]

theorem values_exist {ms : List (MapRef1 α)} (h : ∀ m ∈ ms, m.value ≠ none) :
    ∃ vs : List α, ms.map (·.value) = vs.map some := by
  induction ms with
  | nil => exact ⟨[], rfl⟩
  | cons m ms ih =>
    obtain ⟨vs, hv⟩ := ih (fun x hx => h x (by simp [hx]))
    cases hm : m.value with
    | none => exact absurd hm (h m (by simp))
    | some v => exact ⟨v :: vs, by simp [hm, hv]⟩

theorem setValues_signal (ms : List (MapRef1 α)) (vs : List α) :
    (setValues ms vs).map (·.signal) = ms.map (·.signal) := by
  induction ms generalizing vs with
  | nil => cases vs <;> rfl
  | cons m ms ih => cases vs with
    | nil => rfl
    | cons v vs => simp [setValues, ih]

theorem setValues_self {ms : List (MapRef1 α)} {vs : List α} (h : ms.map (·.value) = vs.map some) :
    setValues ms vs = ms := by
  induction ms generalizing vs with
  | nil => cases vs <;> rfl
  | cons m ms ih =>
    cases vs with
    | nil => rfl
    | cons v vs =>
      simp only [List.map_cons, List.cons.injEq] at h
      obtain ⟨sig, val⟩ := m
      simp only at h
      simp [setValues, h.1, ih h.2]

theorem setValues_value {ms : List (MapRef1 α)} {vs : List α} (h : vs.length = ms.length) :
    (setValues ms vs).map (·.value) = vs.map some := by
  induction ms generalizing vs with
  | nil => cases vs with
    | nil => rfl
    | cons v vs => simp at h
  | cons m ms ih =>
    cases vs with
    | nil => simp at h
    | cons v vs => simp [setValues, ih (by simpa using h)]

theorem grows_poll (w : Waker) {ms ms' : List (MapRef1 α)} (hok : ∀ m ∈ ms, m.signal.Ok)
    (h : ms'.map (·.signal) = (ms.map fun m => (m.poll w).2).map (·.signal)) : Grows ms ms' := by
  induction ms generalizing ms' with
  | nil =>
    cases ms' with
    | nil => exact .nil
    | cons _ _ => simp at h
  | cons m ms ih =>
    cases ms' with
    | nil => simp at h
    | cons m' ms' =>
      simp only [List.map_cons, List.cons.injEq] at h
      refine .cons ?_ (ih (fun x hx => hok x (by simp [hx])) h.2)
      rw [h.1]
      rcases (MapRef1.poll_spec w m (hok m (by simp))).2 with ⟨-, ⟨a, h1, h2⟩, -⟩ | ⟨-, h1, h2, -⟩ |
        ⟨-, h1, h2, -⟩
      · exact .inr ⟨a, h1⟩
      · exact .inl h1
      · exact .inl h1

/-- The input has a value, or will answer its next poll with one. -/
def MapRef1.Primed (m : MapRef1 α) : Prop :=
  m.value ≠ none ∨ (m.signal.alive = true ∧ ∃ a rest, m.signal.src.todo = .ready (some a) :: rest)

theorem MapRef1.poll_value {m : MapRef1 α} (w : Waker) (hp : m.Primed) :
    (m.poll w).2.value ≠ none := by
  obtain ⟨⟨⟨todo, hist⟩, alive⟩, value⟩ := m
  rcases hp with hp | ⟨ha, a, rest, ht⟩
  · unfold MapRef1.poll
    rcases Inp.poll w (⟨⟨todo, hist⟩, alive⟩ : Inp (Option α)) with ⟨_ | ((_ | b) | _), i⟩
    · exact hp
    · exact hp
    · simp
    · exact hp
  · simp only at ha ht
    subst ha ht
    simp [MapRef1.poll, Inp.poll, Src.poll]

theorem MapRef1.poll_plays {m : MapRef1 α} {script : List (Poll (Option α))} (w : Waker)
    (hp : Plays script m.signal.src) : Plays script (m.poll w).2.signal.src := by
  have h : Plays script (m.signal.poll w).2.src := by
    unfold Inp.poll
    split
    · have := hp.poll (w := w) (r := (m.signal.src.poll w).1) (src' := (m.signal.src.poll w).2) rfl
      rcases hq : m.signal.src.poll w with ⟨(_ | b) | _, s⟩ <;> rw [hq] at this <;> exact this
    · exact hp
  unfold MapRef1.poll
  rcases hq : m.signal.poll w with ⟨_ | ((_ | b) | _), i⟩ <;> rw [hq] at h <;> exact h

/-- Invariant of `map_ref!` and `map_mut!`. -/
structure MapMutLive (scripts : List (List (Poll (Option α)))) (ms : List (MapRef1 α)) : Prop where
  inp : ∀ m ∈ ms, m.signal.Ok
  primed : ∀ m ∈ ms, m.Primed
  plays : List.Forall₂ (fun script m => Plays script m.signal.src) scripts ms

/-- The values the body of `map_mut!` gets are determined by the inputs before and after. -/
theorem poll_shown (w : Waker) {ms : List (MapRef1 α)} (hok : ∀ m ∈ ms, m.signal.Ok) :
    (ms.map fun m => (m.poll w).2).map (·.value) =
      List.zipWith shown ms (ms.map fun m => (m.poll w).2) := by
  induction ms with
  | nil => rfl
  | cons m ms ih =>
    simp only [List.map_cons, List.zipWith_cons_cons, List.cons.injEq]
    refine ⟨?_, ih fun x hx => hok x (by simp [hx])⟩
    rcases (MapRef1.poll_spec w m (hok m (by simp))).2 with ⟨-, ⟨a, h1, h2⟩, -⟩ | ⟨-, h1, h2, -⟩ |
      ⟨-, h1, h2, -⟩
    · simp [shown, h1, h2]
    · simp [shown, h1, h2]
    · simp [shown, h1, h2]

theorem forall_signal {ms ms' : List (MapRef1 α)} (h : ms'.map (·.signal) = ms.map (·.signal))
    {P : Inp (Option α) → Prop} (hP : ∀ m ∈ ms, P m.signal) : ∀ m ∈ ms', P m.signal := by
  intro m hm
  have : m.signal ∈ ms'.map (·.signal) := List.mem_map.2 ⟨m, hm, rfl⟩
  rw [h] at this
  obtain ⟨x, hx, he⟩ := List.mem_map.1 this
  rw [← he]
  exact hP x hx

theorem plays_signal {scripts : List (List (Poll (Option α)))} {ms ms' : List (MapRef1 α)}
    (h : ms'.map (·.signal) = ms.map (·.signal))
    (hP : List.Forall₂ (fun script m => Plays script m.signal.src) scripts ms) :
    List.Forall₂ (fun script m => Plays script m.signal.src) scripts ms' := by
  induction hP generalizing ms' with
  | nil => simp only [List.map_nil, List.map_eq_nil_iff] at h; subst h; exact .nil
  | cons h1 _ ih =>
    cases ms' with
    | nil => simp at h
    | cons m' ms' =>
      simp only [List.map_cons, List.cons.injEq] at h
      exact .cons (by rw [h.1]; exact h1) (ih h.2)

theorem SMapMut.step {f : List α → β × List α} (hf : ∀ vs, (f vs).2.length = vs.length)
    {scripts : List (List (Poll (Option α)))} {ms : List (MapRef1 α)} (hl : MapMutLive scripts ms)
    (w : Waker) :
    ∃ r ms', SMapMut.poll f w ms = some (r, ms') ∧ MapMutLive scripts ms' ∧ Grows ms ms' ∧
      match r with
      | .ready (some b) => (∃ vs, List.zipWith shown ms ms' = vs.map some ∧ b = (f vs).1 ∧
          ms'.map (·.value) = (f vs).2.map some) ∧
          ms'.map (·.signal.src.got) ≠ ms.map (·.signal.src.got)
      | .ready none => ms'.map (·.signal.src.got) = ms.map (·.signal.src.got) ∧
          ms'.map (·.value) = ms.map (·.value) ∧ ∀ m ∈ ms', m.signal.src.ended
      | .pending => ms'.map (·.signal.src.got) = ms.map (·.signal.src.got) ∧
          ms'.map (·.value) = ms.map (·.value) ∧
          (∀ m ∈ ms', m.signal.src.ended ∨ m.signal.src.armed w) ∧ ∃ m ∈ ms', ¬ m.signal.src.ended := by
  have hspec := fun m hm => MapRef1.poll_spec w m (hl.inp m hm)
  unfold SMapMut.poll
  rw [pollInputs_eq]
  have hok' : ∀ m ∈ ms.map fun m => (m.poll w).2, m.signal.Ok := by
    simp only [List.mem_map, forall_exists_index, and_imp, forall_apply_eq_imp_iff₂]
    exact fun m hm => (hspec m hm).1
  have hval : ∀ m ∈ ms.map fun m => (m.poll w).2, m.value ≠ none := by
    simp only [List.mem_map, forall_exists_index, and_imp, forall_apply_eq_imp_iff₂]
    exact fun m hm => MapRef1.poll_value w (hl.primed m hm)
  have hplays : List.Forall₂ (fun script m => Plays script m.signal.src) scripts
      (ms.map fun m => (m.poll w).2) := by
    have := hl.plays
    clear hval hok' hspec hl
    induction this with
    | nil => exact .nil
    | cons h1 _ ih => exact .cons (MapRef1.poll_plays w h1) ih
  have hl' : MapMutLive scripts (ms.map fun m => (m.poll w).2) :=
    ⟨hok', fun m hm => .inl (hval m hm), hplays⟩
  by_cases hc : (ms.any fun m => (m.poll w).1.changed) = true
  · obtain ⟨vs, hvs⟩ := values_exist hval
    simp only [hc, if_true, inputValues_eq hvs]
    have hsig := setValues_signal (ms.map fun m => (m.poll w).2) (f vs).2
    have hlen : (f vs).2.length = (ms.map fun m => (m.poll w).2).length := by
      rw [hf]
      have := congrArg List.length hvs
      simpa using this.symm
    have hv' := setValues_value hlen
    refine ⟨_, _, rfl, ⟨forall_signal hsig hok', fun m hm => .inl ?_, plays_signal hsig hplays⟩,
      grows_poll w hl.inp hsig, ⟨vs, ?_, rfl, hv'⟩, ?_⟩
    · have : m.value ∈ (f vs).2.map some := by
        rw [← hv']; exact List.mem_map.2 ⟨m, hm, rfl⟩
      obtain ⟨v, -, hv⟩ := List.mem_map.1 this
      rw [← hv]
      simp
    · rw [← hvs, poll_shown w hl.inp]
      have : ∀ (l : List (MapRef1 α)) {a b : List (MapRef1 α)}, a.map (·.signal) = b.map (·.signal) →
          List.zipWith shown l a = List.zipWith shown l b := by
        intro l
        induction l with
        | nil => intros; rfl
        | cons x l ih =>
          intro a b hab
          cases a with
          | nil => cases b with
            | nil => rfl
            | cons y b => simp at hab
          | cons z a =>
            cases b with
            | nil => simp at hab
            | cons y b =>
              simp only [List.map_cons, List.cons.injEq] at hab
              simp [ih hab.2, shown, hab.1]
      exact this ms hsig
    · obtain ⟨m, hm, hmc⟩ := List.any_eq_true.1 hc
      intro he
      have h2 : (setValues (ms.map fun m => (m.poll w).2) (f vs).2).map (·.signal.src.got) =
          (ms.map fun m => (m.poll w).2).map (·.signal.src.got) := by
        have := congrArg (List.map fun i : Inp (Option α) => i.src.got) hsig
        simpa [Function.comp_def] using this
      rw [h2] at he
      have h3 : ∀ x ∈ ms, (x.poll w).2.signal.src.got = x.signal.src.got := by
        rw [List.map_map] at he
        exact List.map_inj_left.1 he
      rcases (hspec m hm).2 with ⟨-, ⟨a, h4, -⟩, -⟩ | ⟨h4, -⟩ | ⟨h4, -⟩
      · rw [h3 m hm] at h4
        simpa using congrArg List.length h4
      · rw [h4] at hmc; simp at hmc
      · rw [h4] at hmc; simp at hmc
  · have hnc : ∀ m ∈ ms, (m.poll w).1.changed = false := by
      intro m hm
      by_contra hcm
      exact hc (List.any_eq_true.2 ⟨m, hm, by simpa using hcm⟩)
    have hgot : (ms.map fun m => (m.poll w).2).map (·.signal.src.got) = ms.map (·.signal.src.got) := by
      rw [List.map_map]
      apply List.map_inj_left.2
      intro m hm
      rcases (hspec m hm).2 with ⟨h4, -⟩ | ⟨-, h4, -⟩ | ⟨-, h4, -⟩
      · have := hnc m hm; rw [h4] at this; simp at this
      · exact h4
      · exact h4
    have hvalue : (ms.map fun m => (m.poll w).2).map (·.value) = ms.map (·.value) := by
      rw [List.map_map]
      apply List.map_inj_left.2
      intro m hm
      rcases (hspec m hm).2 with ⟨h4, -⟩ | ⟨-, -, h4, -⟩ | ⟨-, -, h4, -⟩
      · have := hnc m hm; rw [h4] at this; simp at this
      · exact h4
      · exact h4
    simp only [hc, Bool.false_eq_true, if_false]
    by_cases hd : (ms.all fun m => (m.poll w).1.done) = true
    · simp only [hd, if_true]
      refine ⟨_, _, rfl, hl', grows_poll w hl.inp rfl, hgot, hvalue, ?_⟩
      simp only [List.mem_map, forall_exists_index, and_imp, forall_apply_eq_imp_iff₂]
      intro m hm
      have := List.all_eq_true.1 hd m hm
      rcases (hspec m hm).2 with ⟨h4, -⟩ | ⟨-, -, -, h4⟩ | ⟨h4, -⟩
      · rw [h4] at this; simp at this
      · exact h4
      · rw [h4] at this; simp at this
    · simp only [hd, Bool.false_eq_true, if_false]
      refine ⟨_, _, rfl, hl', grows_poll w hl.inp rfl, hgot, hvalue, ?_, ?_⟩
      · simp only [List.mem_map, forall_exists_index, and_imp, forall_apply_eq_imp_iff₂]
        intro m hm
        rcases (hspec m hm).2 with ⟨h4, -⟩ | ⟨-, -, -, h4⟩ | ⟨-, -, -, -, h4⟩
        · have := hnc m hm; rw [h4] at this; simp at this
        · exact .inl h4
        · exact .inr h4
      · have : ∃ m ∈ ms, (m.poll w).1.done = false := by
          by_contra hcon
          apply hd
          apply List.all_eq_true.2
          intro m hm
          by_contra h
          exact hcon ⟨m, hm, by simpa using h⟩
        obtain ⟨m, hm, h⟩ := this
        refine ⟨_, List.mem_map.2 ⟨m, hm, rfl⟩, ?_⟩
        rcases (hspec m hm).2 with ⟨-, -, h4⟩ | ⟨h4, -⟩ | ⟨-, -, -, h4, -⟩
        · exact h4
        · rw [h4] at h; simp at h
        · exact h4

theorem SMapRef.poll_state {f : List α → β} {w : Waker} {s s' : List (MapRef1 α)}
    {r : Poll (Option β)} (hp : ∀ m ∈ s, m.Primed)
    (h : SMapMut.poll (fun vs => (f vs, vs)) w s = some (r, s')) :
    s' = s.map (fun m => (m.poll w).2) ∧ ∀ m ∈ s', m.value ≠ none := by
  have hval : ∀ m ∈ s.map fun m => (m.poll w).2, m.value ≠ none := by
    simp only [List.mem_map, forall_exists_index, and_imp, forall_apply_eq_imp_iff₂]
    exact fun m hm => MapRef1.poll_value w (hp m hm)
  obtain ⟨vs, hvs⟩ := values_exist hval
  unfold SMapMut.poll at h
  rw [pollInputs_eq] at h
  simp only [inputValues_eq hvs, setValues_self hvs] at h
  have : s' = s.map fun m => (m.poll w).2 := by
    split at h
    · cases h; rfl
    · split at h <;> cases h <;> rfl
  exact ⟨this, by rw [this]; exact hval⟩

theorem MapRef1.poll_latest {m : MapRef1 α} (w : Waker) (hok : m.signal.Ok)
    (hv : m.value = m.signal.src.got.getLast?) :
    (m.poll w).2.value = (m.poll w).2.signal.src.got.getLast? := by
  rcases (MapRef1.poll_spec w m hok).2 with ⟨-, ⟨a, h1, h2⟩, -⟩ | ⟨-, h1, h2, -⟩ | ⟨-, h1, h2, -⟩
  · simp [h1, h2]
  · simp [h1, h2, hv]
  · simp [h1, h2, hv]

theorem forall₂_and_mem {γ δ : Type} {R : γ → δ → Prop} {P : δ → Prop} {l : List γ} {l' : List δ}
    (h : List.Forall₂ R l l') (hP : ∀ x ∈ l', P x) : List.Forall₂ (fun a b => R a b ∧ P b) l l' := by
  induction h with
  | nil => exact .nil
  | cons h _ ih => exact .cons ⟨h, hP _ (by simp)⟩ (ih fun x hx => hP x (by simp [hx]))

end Verif
