import Verif.NetProofs
import Verif.MapRefProofs

/-!
# Networks of signals: what a poll does
-/

namespace Verif.Net

variable {α β γ σ : Type}

theorem ofFn_inj {n : Nat} {f g : Fin n → β} (h : List.ofFn f = List.ofFn g) (i : Fin n) : f i = g i := by
  have : (List.ofFn f)[i.val]? = (List.ofFn g)[i.val]? := by rw [h]
  simpa using this

theorem inputValues_some {ms : List (MapRef1 β)} {vs : List β} (h : inputValues ms = some vs) :
    ms.map (·.value) = vs.map some := by
  induction ms generalizing vs with
  | nil => simp [inputValues] at h; subst h; rfl
  | cons m ms ih =>
    simp only [inputValues] at h
    cases hv : m.value with
    | none => rw [hv] at h; cases h
    | some v =>
      cases hi : inputValues ms with
      | none => rw [hv, hi] at h; cases h
      | some us =>
        rw [hv, hi] at h
        cases h
        simp [hv, ih hi]

/-- Being the same is symmetric as far as the end is concerned. -/
theorem dead_same {p : Net α β} {W W' : Env α} {s : p.St} (hl : Same (p.Owns s) W W')
    (h : Dead p W' s) : Dead p W s := by
  induction p with
  | source m =>
    have hc := hl.cell m _ ⟨rfl, rfl⟩
    exact ⟨by rw [← hl.senders]; exact h.1, (congrArg Mut.ChangedWaker.changed hc).symm.trans h.2⟩
  | always b => exact h
  | map f p ih => exact ih hl h
  | dedupe p ih => exact ih hl h
  | eq b p ih => exact ih hl h
  | neq b p ih => exact ih hl h
  | mapRef ps f ih => exact fun i => ih i (hl.mono fun m k hk => ⟨i, hk⟩) (h i)
  | switch g p ihg ih =>
    obtain ⟨h1, t, si', h2, h3⟩ := h
    exact ⟨ih (hl.mono fun m k hk => Or.inl hk) h1, t, si', h2,
      ihg t (hl.mono fun m k hk => Or.inr ⟨t, si', h2, hk⟩) h3⟩

theorem source_post {m : Nat} {w : Waker} {W W' : Env α} {id id' : Nat} {last : Option α}
    {r : Poll (Option α)} (hi : Inv (Net.source m) W id last) (hok : Ok W)
    (h : (Net.source m).Polls w W id r W' id') : Post (Net.source m) w W id last r W' id' := by
  obtain ⟨h1, h2, rfl⟩ := h
  obtain ⟨i1, i2, i3⟩ := hi
  obtain ⟨x, hx⟩ : ∃ x, x = (W m).pollChange id' w _root_.id := ⟨_, rfl⟩
  rw [← hx] at h1 h2
  have hs : (W m).step (.poll id' w) = some (.poll x.1, x.2) := by
    simp only [Mut.World.step]
    rw [if_pos ⟨i1, i2⟩, ← hx]
  have key : x.2.value = (W m).value ∧ x.2.senders = (W m).senders ∧ x.2.woken = (W m).woken ∧
      x.2.cells = (W m).cells ∧ (∀ i, i ≠ id' → x.2.cell i = (W m).cell i) ∧
      (x.2.cell id').alive = true ∧ (x.2.cell id').changed = false ∧
      ((((W m).cell id').changed = true ∧ x.1 = .ready (some (W m).value)) ∨
       (((W m).cell id').changed = false ∧ (W m).senders = 0 ∧ x.1 = .ready none) ∨
       (((W m).cell id').changed = false ∧ x.1 = .pending ∧ (x.2.cell id').waker = some w)) := by
    subst hx
    cases hc : ((W m).cell id').changed with
    | true =>
      simp only [Mut.World.pollChange, Mut.ChangedWaker.isChanged, hc]
      refine ⟨rfl, rfl, rfl, rfl, fun i hi => ?_, ?_, ?_, .inl (by simp)⟩ <;>
        simp_all [Mut.World.setCell]
    | false =>
      by_cases hz : (W m).senders = 0
      · simp only [Mut.World.pollChange, Mut.ChangedWaker.isChanged, hc, if_pos hz]
        refine ⟨rfl, rfl, rfl, rfl, fun i hi => ?_, ?_, ?_, .inr (.inl (by simp [hz]))⟩ <;>
          simp_all [Mut.World.setCell]
      · simp only [Mut.World.pollChange, Mut.ChangedWaker.isChanged, hc, if_neg hz]
        refine ⟨rfl, rfl, rfl, rfl, fun i hi => ?_, ?_, ?_, .inr (.inr ⟨by trivial, by trivial, ?_⟩)⟩ <;>
          simp_all [Mut.World.setCell, Mut.ChangedWaker.setWaker]
  obtain ⟨k1, k2, k3, k4, k5, k6, k7, k8⟩ := key
  have he : W' m = x.2 := by rw [h2, put_same]
  refine ⟨?_, ⟨?_, ?_, ?_⟩, ?_, fun m i h => .inl h, ?_, ?_, ?_, ?_, ?_, ?_⟩
  · rw [h2]
    exact frame_put hok hs k1 k2 k3 (by omega) fun i _ h => k5 i fun hh => h ⟨rfl, hh⟩
  · rw [he, k4]; exact i1
  · rw [he]; exact k6
  · intro _
    rw [he, k1, h1]
    rcases k8 with ⟨-, h⟩ | ⟨hc, -, h⟩ | ⟨hc, h, -⟩ <;> rw [h]
    · rfl
    · exact i3 hc
    · exact i3 hc
  · show ((W' m).cell id').changed = false
    rw [he]; exact k7
  · intro hc b
    rw [h1]
    rcases k8 with ⟨h, -⟩ | ⟨-, -, h⟩ | ⟨-, h, -⟩
    · exact absurd (h.symm.trans hc) (by simp)
    · rw [h]; simp
    · rw [h]; simp
  · intro hr
    rw [h1] at hr
    rcases k8 with ⟨-, h⟩ | ⟨-, h, -⟩ | ⟨-, h, -⟩
    · rw [h] at hr; cases hr
    · exact ⟨by rw [he, k2]; exact h, by rw [he]; exact k7⟩
    · rw [h] at hr; cases hr
  · intro hr
    rw [h1] at hr
    rcases k8 with ⟨-, h⟩ | ⟨-, -, h⟩ | ⟨-, -, h⟩
    · rw [h] at hr; cases hr
    · rw [h] at hr; cases hr
    · exact ⟨by rw [he]; exact k7, .inr (by rw [he]; exact h)⟩
  · rintro ⟨hd, hc⟩
    subst hx
    rw [h1]
    simp only [Mut.World.pollChange, Mut.ChangedWaker.isChanged]
    rw [hc]
    simp only [if_pos hd]
  · rintro hr ⟨hd, -⟩
    rw [he, k2] at hd
    subst hx
    rw [h1] at hr
    rcases k8 with ⟨-, h⟩ | ⟨-, -, h⟩ | ⟨hc, -, -⟩
    · rw [h] at hr; cases hr
    · rw [h] at hr; cases hr
    · simp only [Mut.World.pollChange, Mut.ChangedWaker.isChanged] at hr
      rw [hc] at hr
      simp only [if_pos hd] at hr
      cases hr
  · rintro hc ⟨hd, -⟩
    rw [he, k2] at hd
    exact ⟨hd, hc⟩

theorem always_post {b : β} {w : Waker} {W W' : Env α} {s s' : SAlways β} {last : Option β}
    {r : Poll (Option β)} (hi : Inv (Net.always (α := α) b) W s last) (hok : Ok W)
    (h : (Net.always (α := α) b).Polls w W s r W' s') : Post (Net.always (α := α) b) w W s last r W' s' := by
  obtain ⟨h1, rfl⟩ := h
  cases h1
  rcases hi with ⟨rfl, rfl⟩ | ⟨rfl, rfl⟩
  · exact ⟨Frame.refl _ hok, .inr ⟨rfl, rfl⟩, rfl, fun m i h => h.elim, fun h => (by cases h), fun _ => rfl,
      fun _ => rfl, fun h => (by cases h), fun h => (by cases h), fun h _ => h⟩
  · exact ⟨Frame.refl _ hok, .inr ⟨rfl, rfl⟩, rfl, fun m i h => h.elim, fun h b => (by simp), fun _ => rfl,
      fun _ => rfl, fun h => rfl, fun h => (by cases h), fun h _ => h⟩

/-! ## `map_ref!` -/

section MapRef

variable {n : Nat} {ps : Fin (n + 1) → Net α β} {w : Waker} {Ws : Nat → Env α}
  {s s' : ∀ i, (ps i).St} {v : Fin (n + 1) → Option β} {l : Fin (n + 1) → List (Poll (Option β))}

/-- The polls of the inputs, one after the other. -/
theorem inputs_post
    (ih : ∀ i {W s last r W' s'}, Inv (ps i) W s last → Ok W → (ps i).Polls w W s r W' s' →
      Post (ps i) w W s last r W' s')
    (hi : ∀ i, Inv (ps i) (Ws 0) (s i) (v i))
    (hd : ∀ i j m k, i ≠ j → (ps i).Owns (s i) m k → ¬ (ps j).Owns (s j) m k) (hok : Ok (Ws 0))
    (h : ∀ i : Fin (n + 1), Inv (ps i) (Ws i) (s i) (v i) → Ok (Ws i) →
      Many ((ps i).Polls w) (Ws i) (s i) (l i) (Ws (i + 1)) (s' i)) :
    (∀ i : Fin (n + 1), PostMany (ps i) w (Ws i) (s i) (v i) (l i) (Ws (i + 1)) (s' i)) ∧
    (∀ i : Fin (n + 1), Same ((ps i).Owns (s i)) (Ws 0) (Ws i)) ∧
    (∀ i : Fin (n + 1), Same ((ps i).Owns (s' i)) (Ws (i + 1)) (Ws (n + 1))) ∧
    (∀ i j m k, i ≠ j → (ps i).Owns (s' i) m k → ¬ (ps j).Owns (s' j) m k) ∧
    Frame (fun m k => ∃ i, (ps i).Owns (s i) m k) (Ws 0) (Ws (n + 1)) ∧
    (∀ i m k, (ps i).Owns (s' i) m k → (ps i).Owns (s i) m k ∨ (Ws 0 m).cells ≤ k) := by
  let O : Nat → Nat → Nat → Prop := fun i m k => ∃ hi : i < n + 1, (ps ⟨i, hi⟩).Owns (s ⟨i, hi⟩) m k
  have lt : ∀ i m k, (ps i).Owns (s i) m k → k < (Ws 0 m).cells := fun i m k hk => (own_lt (hi i) hk).1
  have key : ∀ a, a ≤ n + 1 → (∀ b, b ≤ a → Ok (Ws b)) ∧
      ∀ i : Fin (n + 1), i < a → PostMany (ps i) w (Ws i) (s i) (v i) (l i) (Ws (i + 1)) (s' i) := by
    intro a ha
    induction a with
    | zero => exact ⟨fun b hb => by obtain rfl : b = 0 := by omega
                                    exact hok, fun i hi => absurd hi (by omega)⟩
    | succ a iha =>
      obtain ⟨i1, i2⟩ := iha (by omega)
      have ch := frame_chain (O := O) i1
        (fun i hi => (i2 ⟨i, by omega⟩ hi).frame.mono fun m k _ hk => ⟨by omega, hk⟩) 0 a (by omega) (by omega)
      have hinv : Inv (ps ⟨a, by omega⟩) (Ws a) (s ⟨a, by omega⟩) (v ⟨a, by omega⟩) := by
        refine inv_later (ch.same (fun m k hk => lt _ m k hk) ?_).later (hi _)
        rintro m k hk ⟨i, -, hi, hi', h3⟩
        exact hd _ _ m k (by intro h; cases h; omega) hk h3
      have fr := many_post (ih ⟨a, by omega⟩) hinv (i1 a (Nat.le_refl _))
        (h ⟨a, by omega⟩ hinv (i1 a (Nat.le_refl _)))
      refine ⟨fun b hb => ?_, fun i hi => ?_⟩
      · by_cases hb' : b ≤ a
        · exact i1 b hb'
        · obtain rfl : b = a + 1 := by omega
          exact fr.frame.ok
      · by_cases hi' : i < a
        · exact i2 i hi'
        · have he : i = ⟨a, by omega⟩ := Fin.ext (by simp; omega)
          rw [he]
          exact fr
  obtain ⟨k1, k2⟩ := key (n + 1) (Nat.le_refl _)
  have post := fun i : Fin (n + 1) => k2 i (by omega)
  have ch := frame_chain (O := O) k1 (fun i hi => (post ⟨i, hi⟩).frame.mono fun m k _ hk => ⟨hi, hk⟩)
  have own : ∀ i m k, (ps i).Owns (s' i) m k → (ps i).Owns (s i) m k ∨ (Ws 0 m).cells ≤ k := by
    intro i m k hk
    rcases (post i).own m k hk with h | h
    · exact .inl h
    · exact .inr (Nat.le_trans ((ch 0 i (by omega) (by omega)).cells m) h)
  have lt' : ∀ (i : Fin (n + 1)) m k, (ps i).Owns (s' i) m k → k < (Ws (i + 1) m).cells :=
    fun i m k hk => (own_lt (post i).inv hk).1
  refine ⟨post, fun i => ?_, fun i => ?_, ?_, ?_, own⟩
  · refine (ch 0 i (by omega) (by omega)).same (fun m k hk => lt i m k hk) ?_
    rintro m k hk ⟨j, -, hj, hj', h3⟩
    exact hd _ _ m k (by intro h; subst h; simp at hj) hk h3
  · refine (ch (i + 1) (n + 1) (by omega) (by omega)).same (fun m k hk => lt' i m k hk) ?_
    rintro m k hk ⟨j, hj, -, hj', h3⟩
    rcases own i m k hk with h | h
    · exact hd i ⟨j, hj'⟩ m k (by intro h; subst h; simp at hj; omega) h h3
    · have := lt _ m k h3; omega
  · have key : ∀ i j : Fin (n + 1), i < j → ∀ m k, (ps i).Owns (s' i) m k →
        ¬ (ps j).Owns (s' j) m k := by
      intro i j hij m k hi hj
      have a1 := lt' i m k hi
      have a3 := (ch (i + 1) j (by omega) (by omega)).cells m
      rcases (post j).own m k hj with h | h
      · rcases own i m k hi with h' | h'
        · exact hd i j m k (by omega) h' h
        · have := lt j m k h; omega
      · omega
    intro i j m k hij hi hj
    rcases Nat.lt_or_gt_of_ne (fun h => hij (Fin.ext h)) with h | h
    · exact key i j h m k hi hj
    · exact key j i h m k hj hi
  · refine (ch 0 (n + 1) (by omega) (by omega)).mono ?_
    rintro m k - ⟨i, -, -, hi, hk⟩
    exact ⟨_, hk⟩

end MapRef

/-- What a poll of `map_ref!` answers. -/
theorem mapRef_answer {n : Nat} {f : List β → γ} {w : Waker} {ms ms' : Fin (n + 1) → MapRef1 β}
    {r : Poll (Option γ)} (h : SMapRef.poll f w (List.ofFn ms) = some (r, List.ofFn ms')) :
    (∀ i, ms' i = ((ms i).poll w).2) ∧
    (((∃ i, ((ms i).poll w).1.changed = true) ∧
        ∃ vs, inputValues (List.ofFn ms') = some vs ∧ r = .ready (some (f vs))) ∨
     ((∀ i, ((ms i).poll w).1.changed = false) ∧ (∀ i, ((ms i).poll w).1.done = true) ∧ r = .ready none) ∨
     ((∀ i, ((ms i).poll w).1.changed = false) ∧ (∃ i, ((ms i).poll w).1.done = false) ∧ r = .pending)) := by
  unfold SMapRef.poll SMapMut.poll at h
  rw [pollInputs_eq] at h
  have hm : (List.ofFn ms).map (fun m => (m.poll w).2) = List.ofFn fun i => ((ms i).poll w).2 := by
    rw [List.map_ofFn]; rfl
  rw [hm] at h
  by_cases hc : (List.ofFn ms).any (fun m => (m.poll w).1.changed) = true
  · simp only [hc, ↓reduceIte] at h
    cases hv : inputValues (List.ofFn fun i => ((ms i).poll w).2) with
    | none => rw [hv] at h; cases h
    | some vs =>
      rw [hv] at h
      simp only [Option.some.injEq, Prod.mk.injEq] at h
      obtain ⟨rfl, h⟩ := h
      rw [setValues_self (inputValues_some hv)] at h
      refine ⟨fun i => (ofFn_inj h i).symm, .inl ⟨?_, vs, by rw [← h]; exact hv, rfl⟩⟩
      obtain ⟨m, h1, h2⟩ := List.any_eq_true.1 hc
      obtain ⟨i, rfl⟩ := List.mem_ofFn.1 h1
      exact ⟨i, h2⟩
  · have hc' : (List.ofFn ms).any (fun m => (m.poll w).1.changed) = false := by simpa using hc
    have hall : ∀ i, ((ms i).poll w).1.changed = false := by
      intro i
      have := List.any_eq_false.1 hc' (ms i) (List.mem_ofFn.2 ⟨i, rfl⟩)
      simpa using this
    simp only [hc', Bool.false_eq_true, ↓reduceIte] at h
    by_cases hd : (List.ofFn ms).all (fun m => (m.poll w).1.done) = true
    · simp only [hd, ↓reduceIte, Option.some.injEq, Prod.mk.injEq] at h
      obtain ⟨rfl, h⟩ := h
      exact ⟨fun i => (ofFn_inj h i).symm, .inr (.inl ⟨hall, fun i =>
        List.all_eq_true.1 hd (ms i) (List.mem_ofFn.2 ⟨i, rfl⟩), rfl⟩)⟩
    · have hd' : (List.ofFn ms).all (fun m => (m.poll w).1.done) = false := by simpa using hd
      simp only [hd', Bool.false_eq_true, ↓reduceIte, Option.some.injEq, Prod.mk.injEq] at h
      obtain ⟨rfl, h⟩ := h
      refine ⟨fun i => (ofFn_inj h i).symm, .inr (.inr ⟨hall, ?_, rfl⟩)⟩
      obtain ⟨m, h1, h2⟩ := List.all_eq_false.1 hd'
      obtain ⟨i, rfl⟩ := List.mem_ofFn.1 h1
      exact ⟨i, by simpa using h2⟩

theorem inputValues_congr {n : Nat} {ms ms' : Fin n → MapRef1 β} (h : ∀ i, (ms i).value = (ms' i).value) :
    inputValues (List.ofFn ms) = inputValues (List.ofFn ms') := by
  induction n with
  | zero => simp [inputValues]
  | succ n ih =>
    rw [List.ofFn_succ, List.ofFn_succ]
    simp only [inputValues, h 0, ih fun i => h i.succ]

theorem mapRef_post {n : Nat} {ps : Fin (n + 1) → Net α β} {f : List β → γ} {w : Waker}
    (ih : ∀ i {W s last r W' s'}, Inv (ps i) W s last → Ok W → (ps i).Polls w W s r W' s' →
      Post (ps i) w W s last r W' s')
    {W W' : Env α} {s s' : (Net.mapRef ps f).St} {last : Option γ} {r : Poll (Option γ)}
    (hi : Inv (Net.mapRef ps f) W s last) (hok : Ok W) (h : (Net.mapRef ps f).Polls w W s r W' s') :
    Post (Net.mapRef ps f) w W s last r W' s' := by
  obtain ⟨l, ⟨Ws, rfl, rfl, h1⟩, h2, h3⟩ := h
  obtain ⟨g1, g2, rfl⟩ := hi
  obtain ⟨post, same1, same2, disj, frame, own⟩ := inputs_post ih (fun i => (g1 i).1) g2 hok fun i _ _ => h1 i
  obtain ⟨a1, a2⟩ := mapRef_answer h2
  -- each input
  have use : ∀ i, _ := fun i => mapRef1_took (m := s.1 i) (m' := s'.1 i) (l := l i) (w := w)
    (res := (MapRef1.poll w ⟨⟨give (l i) (s.1 i).signal.src, (s.1 i).signal.alive⟩, (s.1 i).value⟩).1)
    (by rw [a1 i]) (h3 i)
  have dead1 : ∀ i, Dead (ps i) (Ws 0) (s.2 i) → Dead (ps i) (Ws i) (s.2 i) := fun i hd =>
    dead_later (same1 i).later hd
  have deadE : ∀ i, l i = [] → (s.1 i).signal.alive = false → Dead (ps i) (Ws (i + 1)) (s'.2 i) := by
    intro i hl ha
    obtain ⟨e1, e2⟩ := (post i).nil hl
    rw [e1, e2]
    exact dead1 i ((g1 i).2 ha)
  have deadN : ∀ i, l i = [.ready none] → Dead (ps i) (Ws (i + 1)) (s'.2 i) := by
    intro i hl
    exact (post i).ended (by rw [hl]; rfl)
  have up : ∀ i, Dead (ps i) (Ws (i + 1)) (s'.2 i) → Dead (ps i) (Ws (n + 1)) (s'.2 i) := fun i hd =>
    dead_later (same2 i).later hd
  have down1 : ∀ i, Dead (ps i) (Ws i) (s.2 i) → Dead (ps i) (Ws 0) (s.2 i) := fun i hd =>
    dead_same (same1 i) hd
  have down2 : ∀ i, Dead (ps i) (Ws (n + 1)) (s'.2 i) → Dead (ps i) (Ws (i + 1)) (s'.2 i) := fun i hd =>
    dead_same (same2 i) hd
  have vals : ∀ i, (s'.1 i).value = (l i).foldl upd (s.1 i).value := fun i => (use i).1
  have nochange : (∀ i, items (l i) = []) → ∀ i, (s'.1 i).value = (s.1 i).value := by
    intro hc i
    rw [vals i]
    rcases (use i).2 with ⟨-, hl, -⟩ | ⟨hl, -⟩ | ⟨hl, -⟩ | ⟨a, hl, -⟩
    · rw [hl]; rfl
    · rw [hl]; rfl
    · rw [hl]; rfl
    · have := hc i; rw [hl] at this; cases this
  have chg : ∀ i, (MapRef1.poll w ⟨⟨give (l i) (s.1 i).signal.src, (s.1 i).signal.alive⟩,
      (s.1 i).value⟩).1.changed = false → items (l i) = [] := by
    intro i hc
    rcases (use i).2 with ⟨-, hl, -⟩ | ⟨hl, -⟩ | ⟨hl, -⟩ | ⟨a, hl, -, hr⟩
    · rw [hl]; rfl
    · rw [hl]; rfl
    · rw [hl]; rfl
    · rw [hr] at hc; cases hc
  have dn : ∀ i, (MapRef1.poll w ⟨⟨give (l i) (s.1 i).signal.src, (s.1 i).signal.alive⟩,
      (s.1 i).value⟩).1.done = true → Dead (ps i) (Ws (n + 1)) (s'.2 i) := by
    intro i hc
    rcases (use i).2 with ⟨ha, hl, -⟩ | ⟨hl, -⟩ | ⟨hl, -, hr⟩ | ⟨a, hl, -, hr⟩
    · exact up i (deadE i hl ha)
    · exact up i (deadN i hl)
    · rw [hr] at hc; cases hc
    · rw [hr] at hc; cases hc
  refine ⟨frame, ⟨fun i => ⟨?_, fun ha => ?_⟩, disj, ?_⟩, fun i => ?_, ?_, fun hc b => ?_, fun hr i => ?_,
    fun hr i => ?_, fun hd => ?_, fun hr hd => ?_, fun hc hd i => ?_⟩
  · rw [vals i]
    exact inv_later (same2 i).later (post i).inv
  · rcases (use i).2 with ⟨ha', hl, -⟩ | ⟨hl, -⟩ | ⟨hl, ha', -⟩ | ⟨a, hl, ha', -⟩
    · exact up i (deadE i hl ha')
    · exact up i (deadN i hl)
    · rw [ha] at ha'; cases ha'
    · rw [ha] at ha'; cases ha'
  · rcases a2 with ⟨-, vs, h5, rfl⟩ | ⟨h4, -, rfl⟩ | ⟨h4, -, rfl⟩
    · rw [h5]; rfl
    · rw [inputValues_congr (nochange fun i => chg i (h4 i))]; rfl
    · rw [inputValues_congr (nochange fun i => chg i (h4 i))]; rfl
  · by_cases hl : l i = []
    · rcases (use i).2 with ⟨ha', hl, -⟩ | ⟨hl', -⟩ | ⟨hl', -⟩ | ⟨a, hl', -⟩
      · exact armed_clean (w := w) (dead_armed (up i (deadE i hl ha')))
      all_goals rw [hl] at hl'; cases hl'
    · exact clean_same (same2 i) ((post i).clean hl)
  · rintro m k ⟨i, hk⟩
    exact (own i m k hk).imp (fun h => ⟨i, h⟩) id
  · rcases a2 with ⟨⟨i, h4⟩, -⟩ | ⟨-, -, rfl⟩ | ⟨-, -, rfl⟩
    · exfalso
      have hq := (post i).quiet (clean_same (same1 i) (hc i))
      rcases (use i).2 with ⟨-, hl, -, hr⟩ | ⟨hl, -, hr⟩ | ⟨hl, -, hr⟩ | ⟨a, hl, -, hr⟩
      · rw [hr] at h4; cases h4
      · rw [hr] at h4; cases h4
      · rw [hr] at h4; cases h4
      · rw [hl] at hq; cases hq
    · simp
    · simp
  · rcases a2 with ⟨-, vs, h5, rfl⟩ | ⟨-, h4, rfl⟩ | ⟨-, -, rfl⟩
    · cases hr
    · exact dn i (h4 i)
    · cases hr
  · rcases a2 with ⟨-, vs, h5, rfl⟩ | ⟨-, h4, rfl⟩ | ⟨h4, -, rfl⟩
    · cases hr
    · cases hr
    · rcases (use i).2 with ⟨ha', hl, -⟩ | ⟨hl, -⟩ | ⟨hl, -⟩ | ⟨a, hl, -, hr'⟩
      · exact dead_armed (up i (deadE i hl ha'))
      · exact dead_armed (up i (deadN i hl))
      · exact armed_same (same2 i) ((post i).pend (by rw [hl]; rfl))
      · have := h4 i
        rw [hr'] at this; cases this
  · have hall : ∀ i, (MapRef1.poll w ⟨⟨give (l i) (s.1 i).signal.src, (s.1 i).signal.alive⟩,
        (s.1 i).value⟩).1 = ⟨true, false⟩ := by
      intro i
      have hq := (post i).dead (dead1 i (hd i))
      rcases (use i).2 with ⟨-, hl, -, hr⟩ | ⟨hl, -, hr⟩ | ⟨hl, -, hr⟩ | ⟨a, hl, -, hr⟩
      · exact hr
      · exact hr
      · rw [hl] at hq; have := hq _ (List.mem_singleton.2 rfl); cases this
      · rw [hl] at hq; have := hq _ (List.mem_singleton.2 rfl); cases this
    rcases a2 with ⟨⟨i, h4⟩, -⟩ | ⟨-, -, rfl⟩ | ⟨-, ⟨i, h4⟩, rfl⟩
    · rw [hall i] at h4; cases h4
    · rfl
    · rw [hall i] at h4; cases h4
  · rcases a2 with ⟨-, vs, h5, rfl⟩ | ⟨-, h4, rfl⟩ | ⟨h4, ⟨i, h5⟩, rfl⟩
    · cases hr
    · cases hr
    · rcases (use i).2 with ⟨-, hl, -, hr'⟩ | ⟨hl, -, hr'⟩ | ⟨hl, -⟩ | ⟨a, hl, -, hr'⟩
      · rw [hr'] at h5; cases h5
      · rw [hr'] at h5; cases h5
      · exact (post i).alive (by rw [hl]; rfl) (down2 i (hd i))
      · have := h4 i
        rw [hr'] at this; cases this
  · exact down1 i ((post i).back (clean_same (same1 i) (hc i)) (down2 i (hd i)))

/-! ## `switch` -/

/-- The case that the outer signal has nothing new. -/
theorem switch_stay {g : β → Net α γ} {p : Net α β} {w : Waker}
    (ihg : ∀ t {W s last r W' s'}, Inv (g t) W s last → Ok W → (g t).Polls w W s r W' s' →
      Post (g t) w W s last r W' s')
    {W W1 W' : Env α} {fl fl' : SFlatten β γ} {so so' : p.St} {si si' : Option ((t : β) × (g t).St)}
    {last : Option γ} {r : Poll (Option γ)} {lo : List (Poll (Option β))} {li : List (Poll (Option γ))}
    {x : Option β} {done : Bool}
    (g3 : si = none → x = none ∧ fl.inner = none ∧ last = none)
    (g4 : ∀ t s, si = some ⟨t, s⟩ → x = some t ∧ Inv (g t) W s last ∧
        (∀ m i, p.Owns so m i → ¬ (g t).Owns s m i) ∧ (fl.inner = none → Dead (g t) W s))
    (Q1 : PostMany p w W so x lo W1 so')
    (h5 : (si = none → si' = none ∧ li = [] ∧ W' = W1) ∧ ∀ t s, si = some ⟨t, s⟩ →
      ∃ s', si' = some ⟨t, s'⟩ ∧ Many ((g t).Polls w) W1 s li W' s')
    (d2 : lo.foldl upd x = x) (d3 : fl'.signal.alive = false → done = true)
    (d4 : done = true → Dead p W1 so') (d5 : done = false → Armed w p W1 so')
    (d6 : Dead p W so → done = true) (d7 : InnerUse done fl.inner.isSome li r fl'.inner.isSome)
    (d8 : done = false → ¬ Dead p W1 so') :
    Post (Net.switch g p) w W (fl, so, si) last r W' (fl', so', si') := by
  have own1 : ∀ m i, p.Owns so' m i → i < (W1 m).cells := fun m i hk => (own_lt Q1.inv hk).1
  have armed1 : Armed w p W1 so' := by
    cases done with
    | true => exact dead_armed (d4 rfl)
    | false => exact d5 rfl
  have hx := clean_den Q1.inv (armed_clean armed1)
  rw [d2] at hx
  cases si with
  | none =>
    rw [(g3 rfl).1] at hx; cases hx
  | some q =>
    obtain ⟨t, s0⟩ := q
    obtain ⟨s1, rfl, hm⟩ := h5.2 t s0 rfl
    obtain ⟨k1, k2, k3, k4⟩ := g4 t s0 rfl
    have lt0 : ∀ m i, (g t).Owns s0 m i → i < (W m).cells := fun m i h => (own_lt k2 h).1
    have same01 : Same ((g t).Owns s0) W W1 := Q1.frame.same lt0 fun m i h ho => k3 m i ho h
    have Q2 := many_post (ihg t) (inv_later same01.later k2) Q1.frame.ok hm
    have same1 : Same (p.Owns so') W1 W' := Q2.frame.same own1 fun m i h ho => by
      rcases Q1.own m i h with h | h
      · exact k3 m i h ho
      · have := lt0 m i ho; omega
    -- the answer
    have use : (Dead (g t) W' s1 ∧ items li = [] ∧ li.foldl upd last = last ∧
          r = (if done then .ready none else .pending)) ∨
        (li = [.pending] ∧ r = .pending ∧ Armed w (g t) W' s1 ∧ fl'.inner.isSome = true) ∨
        (∃ b, li = [.ready (some b)] ∧ r = .ready (some b) ∧ fl'.inner.isSome = true) := by
      rcases d7 with ⟨e1, e2, e3, e4⟩ | ⟨e1, z, e2, ⟨rfl, e4, e5⟩ | ⟨e3, e4, e5⟩⟩
      · obtain ⟨n1, n2⟩ := Q2.nil e2
        refine .inl ⟨?_, by rw [e2]; rfl, by rw [e2]; rfl, e3⟩
        rw [n1, n2]
        exact dead_later same01.later (k4 (by simpa using e1))
      · exact .inl ⟨Q2.ended (by rw [e2]; rfl), by rw [e2]; rfl, by rw [e2]; rfl, e4⟩
      · subst e4
        match r with
        | .ready none => exact absurd rfl e3
        | .pending => exact .inr (.inl ⟨e2, rfl, Q2.pend (by rw [e2]; rfl), e5⟩)
        | .ready (some b) => exact .inr (.inr ⟨b, e2, rfl, e5⟩)
    have hlast : li.foldl upd last = upd last r := by
      rcases use with ⟨-, -, e1, e2⟩ | ⟨e1, e2, -⟩ | ⟨b, e1, e2, -⟩
      · rw [e1, e2]; cases done <;> rfl
      · rw [e1, e2]; rfl
      · rw [e1, e2]; rfl
    have hdead : fl'.inner = none → Dead (g t) W' s1 := by
      intro hn
      rcases use with ⟨e, -⟩ | ⟨-, -, -, e⟩ | ⟨b, -, -, e⟩
      · exact e
      · rw [hn] at e; cases e
      · rw [hn] at e; cases e
    have hclean : Clean (g t) W' s1 := by
      rcases use with ⟨e, -⟩ | ⟨-, -, e, -⟩ | ⟨b, e, -⟩
      · exact armed_clean (w := w) (dead_armed e)
      · exact armed_clean e
      · exact Q2.clean (by rw [e]; simp)
    have armedp : Armed w p W' so' := armed_same same1 armed1
    have inv2 : Inv (g t) W' s1 (upd last r) := hlast ▸ Q2.inv
    have disj : ∀ m i, p.Owns so' m i → ¬ (g t).Owns s1 m i := by
      intro m i h ho
      have a1 := own1 m i h
      rcases Q2.own m i ho with ho | ho
      · rcases Q1.own m i h with h | h
        · exact k3 m i h ho
        · have := lt0 m i ho; omega
      · omega
    refine ⟨?_, ⟨x, ?_, ?_, ?_, ?_⟩, ⟨armed_clean armedp, t, s1, rfl, hclean⟩, ?_, ?_, ?_, ?_, ?_, ?_, ?_⟩
    · exact Q1.frame.trans Q2.frame (fun m i _ h => Or.inl h) fun m i _ h => Or.inr ⟨t, s0, rfl, h⟩
    · have := inv_later same1.later Q1.inv
      rw [d2] at this
      exact this
    · exact fun h => dead_later same1.later (d4 (d3 h))
    · intro h; cases h
    · intro t' s' h
      cases h
      exact ⟨k1, inv2, disj, hdead⟩
    · rintro m i (h | ⟨t', s', h, ho⟩)
      · exact (Q1.own m i h).imp Or.inl id
      · cases h
        rcases Q2.own m i ho with h | h
        · exact .inl (Or.inr ⟨t, s0, rfl, h⟩)
        · exact .inr (Nat.le_trans (Q1.frame.cells m) h)
    · rintro ⟨-, t', s', h, hc⟩ b rfl
      cases h
      have := Q2.quiet (clean_same same01 hc)
      rcases use with ⟨-, -, -, e⟩ | ⟨-, e, -⟩ | ⟨b', e, -⟩
      · cases done <;> cases e
      · cases e
      · rw [e] at this; cases this
    · rintro rfl
      rcases use with ⟨e1, -, -, e2⟩ | ⟨-, e, -⟩ | ⟨b', -, e, -⟩
      · cases done with
        | true => exact ⟨dead_later same1.later (d4 rfl), t, s1, rfl, e1⟩
        | false => cases e2
      · cases e
      · cases e
    · rintro rfl
      refine ⟨armedp, t, s1, rfl, ?_⟩
      rcases use with ⟨e1, -⟩ | ⟨-, -, e, -⟩ | ⟨b', -, e, -⟩
      · exact dead_armed e1
      · exact e
      · cases e
    · rintro ⟨hd, t', s', h, hd'⟩
      cases h
      have hdn := d6 hd
      subst hdn
      have := Q2.dead (dead_later same01.later hd')
      rcases use with ⟨-, -, -, e2⟩ | ⟨e, -⟩ | ⟨b', e, -⟩
      · exact e2
      · have := this _ (by rw [e]; exact List.mem_singleton.2 rfl); cases this
      · have := this _ (by rw [e]; exact List.mem_singleton.2 rfl); cases this
    · rintro rfl ⟨hd, t', s', h, hd'⟩
      cases h
      rcases use with ⟨-, -, -, e2⟩ | ⟨e, -⟩ | ⟨b', -, e, -⟩
      · cases done with
        | true => cases e2
        | false => exact d8 rfl (dead_same same1 hd)
      · exact Q2.alive (by rw [e]; rfl) hd'
      · cases e
    · rintro ⟨hc, t'', s'', h'', hc'⟩ ⟨hd, t', s', h, hd'⟩
      cases h
      cases h''
      exact ⟨Q1.back hc (dead_same same1 hd), t, s0, rfl,
        dead_same same01 (Q2.back (clean_same same01 hc') hd')⟩

theorem switch_post {g : β → Net α γ} {p : Net α β} {w : Waker}
    (ihg : ∀ t {W s last r W' s'}, Inv (g t) W s last → Ok W → (g t).Polls w W s r W' s' →
      Post (g t) w W s last r W' s')
    (ih : ∀ {W s last r W' s'}, Inv p W s last → Ok W → p.Polls w W s r W' s' →
      Post p w W s last r W' s')
    {W W' : Env α} {s s' : (Net.switch g p).St} {last : Option γ} {r : Poll (Option γ)}
    (hi : Inv (Net.switch g p) W s last) (hok : Ok W) (h : (Net.switch g p).Polls w W s r W' s') :
    Post (Net.switch g p) w W s last r W' s' := by
  obtain ⟨fl, so, si⟩ := s
  obtain ⟨fl', so', si'⟩ := s'
  obtain ⟨lo, li, W1, h1, h2, h3, h4, h5, h6⟩ := h
  obtain ⟨x, g1, g2, g3, g4⟩ := hi
  simp only at h1 h2 h3 h4 h5 h6 g1 g2 g3 g4
  have Q1 := many_post ih g1 hok h1
  have ok1 := Q1.frame.ok
  have own1 : ∀ m i, p.Owns so' m i → i < (W1 m).cells := fun m i hk => (own_lt Q1.inv hk).1
  -- the outer signal after its polls
  have deadP : lo = [] → fl.signal.alive = false → Dead p W1 so' := by
    intro hl ha
    obtain ⟨e1, e2⟩ := Q1.nil hl
    rw [e1, e2]
    exact g2 ha
  rcases flatten_use h2 h3 h4 with hh | hh | hh | ⟨t, hl, ha', hu⟩
  rotate_right
  · -- a new inner signal
    obtain ⟨W2, W3, sn, sn', m1, m2, m3, m4, m5⟩ := h6 t (by rw [hl]; rfl)
    obtain ⟨f12, invn, ownn⟩ := makes_ok m1 ok1
    -- the old inner signal
    have old : ∃ O, Frame O W2 W3 ∧ ∀ m i, O m i → i < (W m).cells ∧ ¬ p.Owns so m i ∧
        (∃ t0 s0, si = some ⟨t0, s0⟩ ∧ (g t0).Owns s0 m i) := by
      cases si with
      | none =>
        rw [m2 rfl]
        exact ⟨fun _ _ => False, Frame.refl _ f12.ok, fun m i h => h.elim⟩
      | some q =>
        obtain ⟨t0, s0⟩ := q
        obtain ⟨-, k2, k3, -⟩ := g4 t0 s0 rfl
        have lt0 : ∀ m i, (g t0).Owns s0 m i → i < (W m).cells := fun m i h => (own_lt k2 h).1
        have k1 : Inv (g t0) W1 s0 last :=
          inv_later (Q1.frame.same lt0 fun m i h ho => k3 m i ho h).later k2
        have k4 : Inv (g t0) W2 s0 last :=
          inv_later (f12.same (fun m i h => (own_lt k1 h).1) fun m i h ho => ho).later k1
        exact ⟨_, drops_ok (m3 t0 s0 rfl) k4 f12.ok, fun m i h =>
          ⟨lt0 m i h, fun ho => k3 m i ho h, t0, s0, rfl, h⟩⟩
    obtain ⟨O, f23, hO⟩ := old
    have inv3 : Inv (g t) W3 sn none :=
      inv_later (f23.same (fun m i h => (own_lt invn h).1) fun m i h ho => by
        have a1 := ownn m i h
        have a2 := (hO m i ho).1
        have a3 := Q1.frame.cells m
        omega).later invn
    have Q2 := many_post (ihg t) inv3 f23.ok m5
    -- exactly one poll, with a value
    obtain ⟨z, hz, hu⟩ : ∃ z, li = [z] ∧ ((z = .ready none ∧ fl'.inner.isSome = false) ∨
        (z ≠ .ready none ∧ r = z ∧ fl'.inner.isSome = true)) := by
      rcases hu with ⟨h, -⟩ | ⟨-, z, hz, ⟨h7, -, h8⟩ | h7⟩
      · cases h
      · exact ⟨z, hz, .inl ⟨h7, h8⟩⟩
      · exact ⟨z, hz, .inr h7⟩
    have clean2 : Clean (g t) W' sn' := Q2.clean (by rw [hz]; simp)
    have hval := clean_den Q2.inv clean2
    obtain ⟨b, hb⟩ : ∃ b, z = .ready (some b) := by
      rw [hz] at hval
      match z with
      | .ready (some b) => exact ⟨b, rfl⟩
      | .ready none => cases hval
      | .pending => cases hval
    subst hb
    obtain ⟨rfl, hin⟩ : r = .ready (some b) ∧ fl'.inner.isSome = true := by
      rcases hu with ⟨h, -⟩ | ⟨-, h, h'⟩
      · cases h
      · exact ⟨h, h'⟩
    -- the outer signal is not touched any more
    have frame13 : Frame O W1 W3 := f12.trans f23 (fun m i _ h => h.elim) fun m i _ h => h
    have same13 : Same (p.Owns so') W1 W3 := frame13.same own1 fun m i h ho => by
      obtain ⟨a1, a2, -⟩ := hO m i ho
      rcases Q1.own m i h with h | h
      · exact a2 h
      · omega
    have same3 : Same (p.Owns so') W3 W' := Q2.frame.same
      (fun m i h => Nat.lt_of_lt_of_le (own1 m i h) (frame13.cells m)) fun m i h ho => by
        have a1 := own1 m i h
        have a2 := ownn m i ho
        omega
    have invp : Inv p W' so' (lo.foldl upd x) := inv_later same3.later (inv_later same13.later Q1.inv)
    have cleanp : Clean p W' so' := clean_same same3 (clean_same same13 (Q1.clean (by rw [hl]; simp)))
    have disj : ∀ m i, p.Owns so' m i → ¬ (g t).Owns sn' m i := by
      intro m i h ho
      have a1 := own1 m i h
      have a3 := frame13.cells m
      rcases Q2.own m i ho with ho | ho
      · have := ownn m i ho; omega
      · omega
    have m4' : si' = some ⟨t, sn'⟩ := m4
    refine ⟨?_, ⟨_, invp, ?_, ?_, ?_⟩, ⟨cleanp, t, sn', m4, clean2⟩, ?_, ?_, ?_, ?_, ?_, ?_, ?_⟩
    · refine (Q1.frame.trans frame13 (P := (Net.switch g p).Owns (fl, so, si))
        (fun m i _ h => Or.inl h) fun m i _ h => Or.inr (hO m i h).2.2).trans Q2.frame
        (fun m i _ h => h) fun m i hlt h => ?_
      have a1 := ownn m i h
      have a2 := Q1.frame.cells m
      omega
    · intro h
      rw [ha'] at h; cases h
    · intro h
      rw [m4] at h; cases h
    · intro t1 s1 hs
      rw [m4] at hs
      cases hs
      refine ⟨by rw [hl]; rfl, ?_, disj, fun h => ?_⟩
      · have := Q2.inv
        rw [hz] at this
        exact this
      · simp only at h
        rw [h] at hin; cases hin
    · rintro m i (h | ⟨t1, s1, hs, h⟩)
      · exact (Q1.own m i h).imp Or.inl id
      · simp only at hs
        rw [m4'] at hs
        cases hs
        right
        have a2 := Q1.frame.cells m
        have a3 := frame13.cells m
        rcases Q2.own m i h with h | h
        · have := ownn m i h; omega
        · omega
    · intro hc
      have := Q1.quiet hc.1
      rw [hl] at this
      cases this
    · intro h; cases h
    · intro h; cases h
    · intro hd
      have := Q1.dead hd.1 _ (by rw [hl]; exact List.mem_singleton.2 rfl)
      cases this
    · intro h; cases h
    · intro hc
      have := Q1.quiet hc.1
      rw [hl] at this
      cases this
  -- the inner signal stays
  all_goals
    obtain ⟨done, d1, d2, d3, d4, d5, d6, d7, d8⟩ : ∃ done, items lo = [] ∧ lo.foldl upd x = x ∧
        (fl'.signal.alive = false → done = true) ∧ (done = true → Dead p W1 so') ∧
        (done = false → Armed w p W1 so') ∧ (Dead p W so → done = true) ∧
        InnerUse done fl.inner.isSome li r fl'.inner.isSome ∧ (done = false → ¬ Dead p W1 so') := by
      first
      | obtain ⟨ha, hl, -, hu⟩ := hh
        exact ⟨true, by rw [hl]; rfl, by rw [hl]; rfl, fun _ => rfl, fun _ => deadP hl ha,
          (fun h => by cases h), fun _ => rfl, hu, (fun h => by cases h)⟩
      | obtain ⟨hl, ha', hu⟩ := hh
        exact ⟨true, by rw [hl]; rfl, by rw [hl]; rfl, fun _ => rfl, fun _ => Q1.ended (by rw [hl]; rfl),
          (fun h => by cases h), fun _ => rfl, hu, (fun h => by cases h)⟩
      | obtain ⟨hl, ha', hu⟩ := hh
        exact ⟨false, by rw [hl]; rfl, by rw [hl]; rfl, (fun h => by rw [ha'] at h; cases h),
          (fun h => by cases h), fun _ => Q1.pend (by rw [hl]; rfl), (fun h => by
            have := Q1.dead h _ (by rw [hl]; exact List.mem_singleton.2 rfl)
            cases this), hu, fun _ => Q1.alive (by rw [hl]; rfl)⟩
    exact switch_stay ihg g3 g4 Q1 (h5 d1) d2 d3 d4 d5 d6 d7 d8

/-! ## All expressions -/

/-- The answer of `map`. -/
def mapAns (f : β → γ) : Poll (Option β) → Poll (Option γ)
  | .ready (some b) => .ready (some (f b))
  | .ready none => .ready none
  | .pending => .pending

theorem map_post {f : β → γ} {p : Net α β} {w : Waker}
    (ih : ∀ {W s last r W' s'}, Inv p W s last → Ok W → p.Polls w W s r W' s' →
      Post p w W s last r W' s')
    {W W' : Env α} {s s' : (Net.map f p).St} {last : Option γ} {r : Poll (Option γ)}
    (hi : Inv (Net.map f p) W s last) (hok : Ok W) (h : (Net.map f p).Polls w W s r W' s') :
    Post (Net.map f p) w W s last r W' s' := by
  obtain ⟨l, h1, h2, h3⟩ := h
  obtain ⟨x, g1, rfl⟩ := hi
  have Q := many_post ih g1 hok h1
  obtain ⟨r0, hr, hl⟩ : ∃ r0 : Poll (Option β), l = [r0] ∧
      r = mapAns f r0 := by
    unfold SMap.poll at h2
    cases hp : (give l s.1.signal).poll w with
    | mk r0 s0 =>
      simp only [hp] at h2
      match r0 with
      | .ready (some b) =>
        simp only [Option.some.injEq, Prod.mk.injEq] at h2
        exact ⟨_, poll_took (s' := s0) hp (by rw [← h2.2] at h3; exact h3), h2.1.symm⟩
      | .ready none =>
        simp only [Option.some.injEq, Prod.mk.injEq] at h2
        exact ⟨_, poll_took (s' := s0) hp (by rw [← h2.2] at h3; exact h3), h2.1.symm⟩
      | .pending =>
        simp only [Option.some.injEq, Prod.mk.injEq] at h2
        exact ⟨_, poll_took (s' := s0) hp (by rw [← h2.2] at h3; exact h3), h2.1.symm⟩
  subst hl hr
  refine ⟨Q.frame, ⟨_, Q.inv, ?_⟩, Q.clean (by simp), Q.own, fun hc b => ?_, fun hr => ?_, fun hr => ?_,
    fun hd => ?_, fun hr => ?_, Q.back⟩
  · match r0 with
    | .ready (some b) => rfl
    | .ready none => rfl
    | .pending => rfl
  · have := Q.quiet hc
    match r0 with
    | .ready (some b) => cases this
    | .ready none => simp [mapAns]
    | .pending => simp [mapAns]
  · match r0 with
    | .ready (some b) => cases hr
    | .ready none => exact Q.ended rfl
    | .pending => cases hr
  · match r0 with
    | .ready (some b) => cases hr
    | .ready none => cases hr
    | .pending => exact Q.pend rfl
  · have := Q.dead hd r0 (List.mem_singleton.2 rfl)
    subst this
    rfl
  · match r0 with
    | .ready (some b) => cases hr
    | .ready none => cases hr
    | .pending => exact Q.alive rfl

theorem dedupe_post [DecidableEq β] {p : Net α β} {w : Waker}
    (ih : ∀ {W s last r W' s'}, Inv p W s last → Ok W → p.Polls w W s r W' s' →
      Post p w W s last r W' s')
    {W W' : Env α} {s s' : (Net.dedupe p).St} {last : Option β} {r : Poll (Option β)}
    (hi : Inv (Net.dedupe p) W s last) (hok : Ok W) (h : (Net.dedupe p).Polls w W s r W' s') :
    Post (Net.dedupe p) w W s last r W' s' := by
  obtain ⟨l, h1, h2, h3⟩ := h
  obtain ⟨g1, g2⟩ := hi
  have Q := many_post ih g1 hok h1
  obtain ⟨st, c, s0, hp⟩ : ∃ st c s0, (give l s.1.signal).loop w
      (dedupeBody fun _ value => ((value, value), ())) (s.1.oldValue, ()) = (st, c, s0) := ⟨_, _, _, rfl⟩
  have key : r = stopAns st ∧ s'.1.oldValue = c.1 ∧ s'.1.signal = s0 ∧ st ≠ .panic := by
    unfold SDedupe.poll SDedupeMap.poll at h2
    simp only [hp] at h2
    cases st <;> simp only [Option.some.injEq, Prod.mk.injEq, reduceCtorEq] at h2
    all_goals exact ⟨h2.1.symm, by rw [← h2.2], by rw [← h2.2], by simp⟩
  obtain ⟨rfl, k1, k2, k3⟩ := key
  rw [g2] at hp
  have U := loop_took hp (k2 ▸ h3) Q.tail
  obtain ⟨u1, u2, -⟩ := dedupe_use U
  have hinv := Q.inv
  rw [← u1, u2] at hinv
  exact ⟨Q.frame, ⟨hinv, by rw [k1, u2]⟩, Q.clean U.ne, Q.own, fun hc => U.quiet (Q.quiet hc),
    fun hr => Q.ended (U.ended' hr), fun hr => Q.pend (U.pend k3 hr), fun hd => U.dead (Q.dead hd),
    fun hr => Q.alive (U.pend k3 hr), Q.back⟩

theorem eq_post [DecidableEq β] {b : β} {p : Net α β} {w : Waker}
    (ih : ∀ {W s last r W' s'}, Inv p W s last → Ok W → p.Polls w W s r W' s' →
      Post p w W s last r W' s')
    {W W' : Env α} {s s' : (Net.eq b p).St} {last : Option Bool} {r : Poll (Option Bool)}
    (hi : Inv (Net.eq b p) W s last) (hok : Ok W) (h : (Net.eq b p).Polls w W s r W' s') :
    Post (Net.eq b p) w W s last r W' s' := by
  obtain ⟨l, h1, h2, h3⟩ := h
  obtain ⟨x, g1, rfl, g3, g4⟩ := hi
  have Q := many_post ih g1 hok h1
  obtain ⟨st, c, s0, hp⟩ : ∃ st c s0, (give l s.1.signal).loop w
      (eqBody s.1.value) s.1.matched = (st, c, s0) := ⟨_, _, _, rfl⟩
  have key : r = stopAns st ∧ s'.1.matched = c ∧ s'.1.value = s.1.value ∧ s'.1.signal = s0 ∧ st ≠ .panic := by
    unfold SEq.poll at h2
    simp only [hp] at h2
    cases st <;> simp only [Option.some.injEq, Prod.mk.injEq, reduceCtorEq] at h2
    all_goals exact ⟨h2.1.symm, by rw [← h2.2], by rw [← h2.2], by rw [← h2.2], by simp⟩
  obtain ⟨rfl, k1, k2, k3, k4⟩ := key
  rw [g3, g4] at hp
  have U := loop_took hp (k3 ▸ h3) Q.tail
  obtain ⟨u1, u2, -⟩ := match_use (t := (· == b)) (fun _ _ => rfl) U
  exact ⟨Q.frame, ⟨_, Q.inv, by rw [← u1, u2], by rw [k1, u2], by rw [k2, g4]⟩, Q.clean U.ne, Q.own,
    fun hc => U.quiet (Q.quiet hc), fun hr => Q.ended (U.ended' hr), fun hr => Q.pend (U.pend k4 hr),
    fun hd => U.dead (Q.dead hd),
    fun hr => Q.alive (U.pend k4 hr), Q.back⟩

theorem neq_post [DecidableEq β] {b : β} {p : Net α β} {w : Waker}
    (ih : ∀ {W s last r W' s'}, Inv p W s last → Ok W → p.Polls w W s r W' s' →
      Post p w W s last r W' s')
    {W W' : Env α} {s s' : (Net.neq b p).St} {last : Option Bool} {r : Poll (Option Bool)}
    (hi : Inv (Net.neq b p) W s last) (hok : Ok W) (h : (Net.neq b p).Polls w W s r W' s') :
    Post (Net.neq b p) w W s last r W' s' := by
  obtain ⟨l, h1, h2, h3⟩ := h
  obtain ⟨x, g1, rfl, g3, g4⟩ := hi
  have Q := many_post ih g1 hok h1
  obtain ⟨st, c, s0, hp⟩ : ∃ st c s0, (give l s.1.signal).loop w
      (neqBody s.1.value) s.1.matched = (st, c, s0) := ⟨_, _, _, rfl⟩
  have key : r = stopAns st ∧ s'.1.matched = c ∧ s'.1.value = s.1.value ∧ s'.1.signal = s0 ∧ st ≠ .panic := by
    unfold SNeq.poll at h2
    simp only [hp] at h2
    cases st <;> simp only [Option.some.injEq, Prod.mk.injEq, reduceCtorEq] at h2
    all_goals exact ⟨h2.1.symm, by rw [← h2.2], by rw [← h2.2], by rw [← h2.2], by simp⟩
  obtain ⟨rfl, k1, k2, k3, k4⟩ := key
  rw [g3, g4] at hp
  have U := loop_took hp (k3 ▸ h3) Q.tail
  obtain ⟨u1, u2, -⟩ := match_use (t := (· != b)) (fun _ _ => rfl) U
  exact ⟨Q.frame, ⟨_, Q.inv, by rw [← u1, u2], by rw [k1, u2], by rw [k2, g4]⟩, Q.clean U.ne, Q.own,
    fun hc => U.quiet (Q.quiet hc), fun hr => Q.ended (U.ended' hr), fun hr => Q.pend (U.pend k4 hr),
    fun hd => U.dead (Q.dead hd),
    fun hr => Q.alive (U.pend k4 hr), Q.back⟩

/-- What a poll of a network does. -/
theorem polls_post {p : Net α β} {w : Waker} {W W' : Env α} {s s' : p.St} {last : Option β}
    {r : Poll (Option β)} (hi : Inv p W s last) (hok : Ok W) (h : p.Polls w W s r W' s') :
    Post p w W s last r W' s' := by
  induction p generalizing W W' with
  | source m => exact source_post hi hok h
  | always b => exact always_post hi hok h
  | map f p ih => exact map_post (fun hi hok h => ih hi hok h) hi hok h
  | dedupe p ih => exact dedupe_post (fun hi hok h => ih hi hok h) hi hok h
  | eq b p ih => exact eq_post (fun hi hok h => ih hi hok h) hi hok h
  | neq b p ih => exact neq_post (fun hi hok h => ih hi hok h) hi hok h
  | mapRef ps f ih => exact mapRef_post (fun i {_ _ _ _ _ _} hi hok h => ih i hi hok h) hi hok h
  | switch g p ihg ih =>
    exact switch_post (fun t {_ _ _ _ _ _} hi hok h => ihg t hi hok h) (fun hi hok h => ih hi hok h) hi hok h

end Verif.Net
