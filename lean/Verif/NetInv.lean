import Verif.Net
import Verif.MutableProofs

/-!
# Networks of signals: invariants and frames
-/

namespace Verif.Net

variable {α β γ σ : Type}

/-- Every `Mutable` is in a state described by its specification. -/
def Ok (W : Env α) : Prop := ∀ m, ∃ S, Mut.Sim (W m) S

@[simp] theorem put_same (W : Env α) (m : Nat) (x : Mut.World α) : W.put m x m = x := by
  simp [Env.put]

theorem put_other (W : Env α) {m k : Nat} (x : Mut.World α) (h : k ≠ m) : W.put m x k = W k := by
  simp [Env.put, h]

/-- All inputs have ended. -/
def Dead : {β : Type} → (p : Net α β) → Env α → p.St → Prop
  | _, .source m, W, (id : Nat) => (W m).senders = 0 ∧ ((W m).cell id).changed = false
  | _, .always _, _, s => s = (⟨none⟩ : SAlways _)
  | _, .map _ p, W, s => Dead p W s.2
  | _, @Net.dedupe _ _ _ p, W, s => Dead p W s.2
  | _, @Net.eq _ _ _ _ p, W, s => Dead p W s.2
  | _, @Net.neq _ _ _ _ p, W, s => Dead p W s.2
  | _, .mapRef ps _, W, s => ∀ i, Dead (ps i) W (s.2 i)
  | _, .switch g p, W, s => Dead p W s.2.1 ∧ ∃ t si, s.2.2 = some ⟨t, si⟩ ∧ Dead (g t) W si

/-- No input has anything new. -/
def Clean : {β : Type} → (p : Net α β) → Env α → p.St → Prop
  | _, .source m, W, (id : Nat) => ((W m).cell id).changed = false
  | _, .always _, _, s => s = (⟨none⟩ : SAlways _)
  | _, .map _ p, W, s => Clean p W s.2
  | _, @Net.dedupe _ _ _ p, W, s => Clean p W s.2
  | _, @Net.eq _ _ _ _ p, W, s => Clean p W s.2
  | _, @Net.neq _ _ _ _ p, W, s => Clean p W s.2
  | _, .mapRef ps _, W, s => ∀ i, Clean (ps i) W (s.2 i)
  | _, .switch g p, W, s => Clean p W s.2.1 ∧ ∃ t si, s.2.2 = some ⟨t, si⟩ ∧ Clean (g t) W si

/-- No input has anything new, and each will wake `w`, or has ended. -/
def Armed (w : Waker) : {β : Type} → (p : Net α β) → Env α → p.St → Prop
  | _, .source m, W, (id : Nat) => ((W m).cell id).changed = false ∧
      ((W m).senders = 0 ∨ ((W m).cell id).waker = some w)
  | _, .always _, _, s => s = (⟨none⟩ : SAlways _)
  | _, .map _ p, W, s => Armed w p W s.2
  | _, @Net.dedupe _ _ _ p, W, s => Armed w p W s.2
  | _, @Net.eq _ _ _ _ p, W, s => Armed w p W s.2
  | _, @Net.neq _ _ _ _ p, W, s => Armed w p W s.2
  | _, .mapRef ps _, W, s => ∀ i, Armed w (ps i) W (s.2 i)
  | _, .switch g p, W, s => Armed w p W s.2.1 ∧ ∃ t si, s.2.2 = some ⟨t, si⟩ ∧ Armed w (g t) W si

/-- The state of a network between polls; `last` is the last value emitted. -/
def Inv : {β : Type} → (p : Net α β) → Env α → p.St → Option β → Prop
  | _, .source m, W, (id : Nat), last => id < (W m).cells ∧ ((W m).cell id).alive = true ∧
      (((W m).cell id).changed = false → last = some (W m).value)
  | _, .always b, _, s, last =>
      s = (⟨some b⟩ : SAlways _) ∧ last = none ∨ s = (⟨none⟩ : SAlways _) ∧ last = some b
  | _, .map f p, W, s, last => ∃ x, Inv p W s.2 x ∧ last = x.map f
  | _, @Net.dedupe _ _ _ p, W, s, last => Inv p W s.2 last ∧ s.1.oldValue = last
  | _, @Net.eq _ _ _ b p, W, s, last => ∃ x, Inv p W s.2 x ∧ last = x.map (· == b) ∧
      s.1.matched = last ∧ s.1.value = b
  | _, @Net.neq _ _ _ b p, W, s, last => ∃ x, Inv p W s.2 x ∧ last = x.map (· != b) ∧
      s.1.matched = last ∧ s.1.value = b
  | _, .mapRef ps f, W, s, last =>
      (∀ i, Inv (ps i) W (s.2 i) (s.1 i).value ∧
        ((s.1 i).signal.alive = false → Dead (ps i) W (s.2 i))) ∧
      (∀ i j m k, i ≠ j → (ps i).Owns (s.2 i) m k → ¬ (ps j).Owns (s.2 j) m k) ∧
      last = (inputValues (List.ofFn s.1)).map f
  | _, .switch g p, W, s, last => ∃ x, Inv p W s.2.1 x ∧
      (s.1.signal.alive = false → Dead p W s.2.1) ∧
      (s.2.2 = none → x = none ∧ s.1.inner = none ∧ last = none) ∧
      (∀ t si, s.2.2 = some ⟨t, si⟩ → x = some t ∧ Inv (g t) W si last ∧
        (∀ m i, p.Owns s.2.1 m i → ¬ (g t).Owns si m i) ∧
        (s.1.inner = none → Dead (g t) W si))

theorem dead_armed {w : Waker} {p : Net α β} {W : Env α} {s : p.St} (h : Dead p W s) :
    Armed w p W s := by
  induction p with
  | source m => exact ⟨h.2, .inl h.1⟩
  | always b => exact h
  | map f p ih => exact ih h
  | dedupe p ih => exact ih h
  | eq b p ih => exact ih h
  | neq b p ih => exact ih h
  | mapRef ps f ih => exact fun i => ih i (h i)
  | switch g p ihg ih =>
    obtain ⟨h1, t, si, h2, h3⟩ := h
    exact ⟨ih h1, t, si, h2, ihg t h3⟩

theorem armed_clean {w : Waker} {p : Net α β} {W : Env α} {s : p.St} (h : Armed w p W s) :
    Clean p W s := by
  induction p with
  | source m => exact h.1
  | always b => exact h
  | map f p ih => exact ih h
  | dedupe p ih => exact ih h
  | eq b p ih => exact ih h
  | neq b p ih => exact ih h
  | mapRef ps f ih => exact fun i => ih i (h i)
  | switch g p ihg ih =>
    obtain ⟨h1, t, si, h2, h3⟩ := h
    exact ⟨ih h1, t, si, h2, ihg t h3⟩

theorem inputValues_ofFn {n : Nat} (ms : Fin n → MapRef1 β) (v : Fin n → β)
    (h : ∀ i, (ms i).value = some (v i)) : inputValues (List.ofFn ms) = some (List.ofFn v) := by
  induction n with
  | zero => simp [inputValues]
  | succ n ih =>
    rw [List.ofFn_succ, List.ofFn_succ]
    simp only [inputValues, h 0, ih (fun i => ms i.succ) (fun i => v i.succ) fun i => h i.succ]

/-- When nothing is new, the last value emitted is the meaning of the expression. -/
theorem clean_den {p : Net α β} {W : Env α} {s : p.St} {last : Option β} (h : Inv p W s last)
    (hc : Clean p W s) : last = some (p.den W.values) := by
  induction p with
  | source m => exact h.2.2 hc
  | always b =>
    rcases h with ⟨h1, h2⟩ | ⟨h1, h2⟩
    · have := h1.symm.trans hc
      cases this
    · exact h2
  | map f p ih =>
    obtain ⟨x, h1, rfl⟩ := h
    rw [ih h1 hc]; rfl
  | dedupe p ih => exact ih h.1 hc
  | eq b p ih =>
    obtain ⟨x, h1, rfl, -⟩ := h
    rw [ih h1 hc]; rfl
  | neq b p ih =>
    obtain ⟨x, h1, rfl, -⟩ := h
    rw [ih h1 hc]; rfl
  | mapRef ps f ih =>
    obtain ⟨h1, -, rfl⟩ := h
    rw [inputValues_ofFn _ _ fun i => ih i (h1 i).1 (hc i)]
    rfl
  | switch g p ihg ih =>
    obtain ⟨x, h1, -, -, h2⟩ := h
    obtain ⟨h3, t, si, h4, h5⟩ := hc
    obtain ⟨h6, h7, -⟩ := h2 t si h4
    have h8 := ih h1 h3
    rw [h6] at h8
    cases h8
    exact ihg _ h7 h5

theorem own_lt {p : Net α β} {W : Env α} {s : p.St} {last : Option β} (h : Inv p W s last) {m i : Nat}
    (ho : p.Owns s m i) : i < (W m).cells ∧ ((W m).cell i).alive = true := by
  induction p with
  | source m' => obtain ⟨rfl, rfl⟩ := ho; exact ⟨h.1, h.2.1⟩
  | always b => exact ho.elim
  | map f p ih => obtain ⟨x, h1, -⟩ := h; exact ih h1 ho
  | dedupe p ih => exact ih h.1 ho
  | eq b p ih => obtain ⟨x, h1, -⟩ := h; exact ih h1 ho
  | neq b p ih => obtain ⟨x, h1, -⟩ := h; exact ih h1 ho
  | mapRef ps f ih =>
    obtain ⟨k, hk⟩ := ho
    exact ih k (h.1 k).1 hk
  | switch g p ihg ih =>
    obtain ⟨x, h1, -, -, h2⟩ := h
    rcases ho with ho | ⟨t, si, h3, ho⟩
    · exact ih h1 ho
    · exact ihg t (h2 t si h3).2.1 ho

/-! ## Frames -/

/-- What may happen to the signals in `O` while the network is not polled. -/
structure Later (O : Nat → Nat → Prop) (W W' : Env α) : Prop where
  cells : ∀ m, (W m).cells ≤ (W' m).cells
  alive : ∀ m i, O m i → ((W m).cell i).alive = true → ((W' m).cell i).alive = true
  clean : ∀ m i, O m i → ((W' m).cell i).changed = false →
    ((W m).cell i).changed = false ∧ (W' m).value = (W m).value
  dead : ∀ m, (W m).senders = 0 → (W' m).senders = 0 ∧ (W' m).value = (W m).value ∧
    ∀ i, O m i → ((W' m).cell i).changed = ((W m).cell i).changed

theorem Later.mono {O O' : Nat → Nat → Prop} {W W' : Env α} (h : Later O W W')
    (ho : ∀ m i, O' m i → O m i) : Later O' W W' :=
  ⟨h.cells, fun m i hi => h.alive m i (ho m i hi), fun m i hi => h.clean m i (ho m i hi),
    fun m hm => ⟨(h.dead m hm).1, (h.dead m hm).2.1, fun i hi => (h.dead m hm).2.2 i (ho m i hi)⟩⟩

theorem dead_later {p : Net α β} {W W' : Env α} {s : p.St} (hl : Later (p.Owns s) W W')
    (h : Dead p W s) : Dead p W' s := by
  induction p with
  | source m =>
    obtain ⟨h1, h2⟩ := h
    obtain ⟨h3, -, h4⟩ := hl.dead m h1
    exact ⟨h3, by rw [h4 _ ⟨rfl, rfl⟩]; exact h2⟩
  | always b => exact h
  | map f p ih => exact ih hl h
  | dedupe p ih => exact ih hl h
  | eq b p ih => exact ih hl h
  | neq b p ih => exact ih hl h
  | mapRef ps f ih => exact fun i => ih i (hl.mono fun m k hk => ⟨i, hk⟩) (h i)
  | switch g p ihg ih =>
    obtain ⟨fl, so, si⟩ := s
    obtain ⟨h1, t, si', h2, h3⟩ := h
    simp only at h2
    subst h2
    exact ⟨ih (hl.mono fun m k hk => Or.inl hk) h1, t, si', rfl,
      ihg t (hl.mono fun m k hk => Or.inr ⟨t, si', rfl, hk⟩) h3⟩

theorem inv_later {p : Net α β} {W W' : Env α} {s : p.St} {last : Option β}
    (hl : Later (p.Owns s) W W') (h : Inv p W s last) : Inv p W' s last := by
  induction p with
  | source m =>
    obtain ⟨h1, h2, h3⟩ := h
    refine ⟨Nat.lt_of_lt_of_le h1 (hl.cells m), hl.alive m _ ⟨rfl, rfl⟩ h2, fun hc => ?_⟩
    obtain ⟨h4, h5⟩ := hl.clean m _ ⟨rfl, rfl⟩ hc
    rw [h5]
    exact h3 h4
  | always b => exact h
  | map f p ih => obtain ⟨x, h1, h2⟩ := h; exact ⟨x, ih hl h1, h2⟩
  | dedupe p ih => exact ⟨ih hl h.1, h.2⟩
  | eq b p ih => obtain ⟨x, h1, h2⟩ := h; exact ⟨x, ih hl h1, h2⟩
  | neq b p ih => obtain ⟨x, h1, h2⟩ := h; exact ⟨x, ih hl h1, h2⟩
  | mapRef ps f ih =>
    obtain ⟨h1, h2, h3⟩ := h
    refine ⟨fun i => ?_, h2, h3⟩
    have hl' : Later ((ps i).Owns (s.2 i)) W W' := hl.mono fun m k hk => ⟨i, hk⟩
    exact ⟨ih i hl' (h1 i).1, fun ha => dead_later hl' ((h1 i).2 ha)⟩
  | switch g p ihg ih =>
    obtain ⟨fl, so, si⟩ := s
    obtain ⟨x, h1, h2, h3, h4⟩ := h
    have hl1 : Later (p.Owns so) W W' := hl.mono fun m k hk => Or.inl hk
    refine ⟨x, ih hl1 h1, fun ha => dead_later hl1 (h2 ha), h3, fun t si' hs => ?_⟩
    obtain ⟨h5, h6, h7, h8⟩ := h4 t si' hs
    simp only at hs
    subst hs
    have hl2 : Later ((g t).Owns si') W W' := hl.mono fun m k hk => Or.inr ⟨t, si', rfl, hk⟩
    exact ⟨h5, ihg t hl2 h6, h7, fun ha => dead_later hl2 (h8 ha)⟩

/-- What a poll, construction or drop does to the environment: signals not in `O` are left alone. -/
structure Frame (O : Nat → Nat → Prop) (W W' : Env α) : Prop where
  value : ∀ m, (W' m).value = (W m).value
  senders : ∀ m, (W' m).senders = (W m).senders
  woken : ∀ m, (W' m).woken = (W m).woken
  cells : ∀ m, (W m).cells ≤ (W' m).cells
  cell : ∀ m i, i < (W m).cells → ¬ O m i → (W' m).cell i = (W m).cell i
  ok : Ok W'

theorem Frame.refl (O : Nat → Nat → Prop) {W : Env α} (h : Ok W) : Frame O W W :=
  ⟨fun _ => rfl, fun _ => rfl, fun _ => rfl, fun _ => Nat.le_refl _, fun _ _ _ _ => rfl, h⟩

theorem Frame.trans {O O' P : Nat → Nat → Prop} {W W1 W2 : Env α} (h : Frame O W W1)
    (h' : Frame O' W1 W2) (h1 : ∀ m i, i < (W m).cells → O m i → P m i)
    (h2 : ∀ m i, i < (W m).cells → O' m i → P m i) : Frame P W W2 :=
  ⟨fun m => (h'.value m).trans (h.value m), fun m => (h'.senders m).trans (h.senders m),
    fun m => (h'.woken m).trans (h.woken m), fun m => Nat.le_trans (h.cells m) (h'.cells m),
    fun m i hi ho => (h'.cell m i (Nat.lt_of_lt_of_le hi (h.cells m)) fun hh => ho (h2 m i hi hh)).trans
      (h.cell m i hi fun hh => ho (h1 m i hi hh)), h'.ok⟩

theorem Frame.mono {O P : Nat → Nat → Prop} {W W' : Env α} (h : Frame O W W')
    (h1 : ∀ m i, i < (W m).cells → O m i → P m i) : Frame P W W' :=
  ⟨h.value, h.senders, h.woken, h.cells, fun m i hi ho => h.cell m i hi fun hh => ho (h1 m i hi hh), h.ok⟩

theorem Frame.values {O : Nat → Nat → Prop} {W W' : Env α} (h : Frame O W W') :
    W'.values = W.values := funext h.value

/-- The signals in `O'` are the same in both environments. -/
structure Same (O' : Nat → Nat → Prop) (W W' : Env α) : Prop where
  value : ∀ m, (W' m).value = (W m).value
  senders : ∀ m, (W' m).senders = (W m).senders
  cells : ∀ m, (W m).cells ≤ (W' m).cells
  cell : ∀ m i, O' m i → (W' m).cell i = (W m).cell i

theorem Same.later {O : Nat → Nat → Prop} {W W' : Env α} (h : Same O W W') : Later O W W' :=
  ⟨h.cells, fun m i hi ha => by rw [h.cell m i hi]; exact ha,
    fun m i hi hc => by rw [h.cell m i hi] at hc; exact ⟨hc, h.value m⟩,
    fun m hs => ⟨by rw [h.senders]; exact hs, h.value m, fun i hi => by rw [h.cell m i hi]⟩⟩

theorem Same.mono {O O' : Nat → Nat → Prop} {W W' : Env α} (h : Same O W W')
    (ho : ∀ m i, O' m i → O m i) : Same O' W W' :=
  ⟨h.value, h.senders, h.cells, fun m i hi => h.cell m i (ho m i hi)⟩

theorem Frame.same {O O' : Nat → Nat → Prop} {W W' : Env α} (h : Frame O W W')
    (h1 : ∀ m i, O' m i → i < (W m).cells) (h2 : ∀ m i, O' m i → ¬ O m i) : Same O' W W' :=
  ⟨h.value, h.senders, h.cells, fun m i hi => h.cell m i (h1 m i hi) (h2 m i hi)⟩

theorem clean_same {p : Net α β} {W W' : Env α} {s : p.St} (hl : Same (p.Owns s) W W')
    (h : Clean p W s) : Clean p W' s := by
  induction p with
  | source m => exact (congrArg Mut.ChangedWaker.changed (hl.cell m _ ⟨rfl, rfl⟩)).trans h
  | always b => exact h
  | map f p ih => exact ih hl h
  | dedupe p ih => exact ih hl h
  | eq b p ih => exact ih hl h
  | neq b p ih => exact ih hl h
  | mapRef ps f ih => exact fun i => ih i (hl.mono fun m k hk => ⟨i, hk⟩) (h i)
  | switch g p ihg ih =>
    obtain ⟨fl, so, si⟩ := s
    obtain ⟨h1, t, si', h2, h3⟩ := h
    simp only at h2
    subst h2
    exact ⟨ih (hl.mono fun m k hk => Or.inl hk) h1, t, si', rfl,
      ihg t (hl.mono fun m k hk => Or.inr ⟨t, si', rfl, hk⟩) h3⟩

theorem armed_same {w : Waker} {p : Net α β} {W W' : Env α} {s : p.St}
    (hl : Same (p.Owns s) W W') (h : Armed w p W s) : Armed w p W' s := by
  induction p with
  | source m =>
    have hc := hl.cell m _ ⟨rfl, rfl⟩
    refine ⟨(congrArg Mut.ChangedWaker.changed hc).trans h.1, h.2.imp (fun h => ?_) fun h => ?_⟩
    · rw [hl.senders]; exact h
    · exact (congrArg Mut.ChangedWaker.waker hc).trans h
  | always b => exact h
  | map f p ih => exact ih hl h
  | dedupe p ih => exact ih hl h
  | eq b p ih => exact ih hl h
  | neq b p ih => exact ih hl h
  | mapRef ps f ih => exact fun i => ih i (hl.mono fun m k hk => ⟨i, hk⟩) (h i)
  | switch g p ihg ih =>
    obtain ⟨fl, so, si⟩ := s
    obtain ⟨h1, t, si', h2, h3⟩ := h
    simp only at h2
    subst h2
    exact ⟨ih (hl.mono fun m k hk => Or.inl hk) h1, t, si', rfl,
      ihg t (hl.mono fun m k hk => Or.inr ⟨t, si', rfl, hk⟩) h3⟩

/-- One step of one `Mutable` that changes nothing but its cells. -/
theorem frame_put {O : Nat → Nat → Prop} {W : Env α} (hok : Ok W) {m : Nat} {x : Mut.World α}
    {e : Mut.Ev α} {o : Mut.Obs α} (hs : (W m).step e = some (o, x)) (h1 : x.value = (W m).value)
    (h2 : x.senders = (W m).senders) (h3 : x.woken = (W m).woken) (h4 : (W m).cells ≤ x.cells)
    (h5 : ∀ i, i < (W m).cells → ¬ O m i → x.cell i = (W m).cell i) : Frame O W (W.put m x) := by
  have key : ∀ k, k ≠ m → W.put m x k = W k := fun k hk => put_other W x hk
  refine ⟨fun k => ?_, fun k => ?_, fun k => ?_, fun k => ?_, fun k i hi ho => ?_, fun k => ?_⟩ <;>
    by_cases hk : k = m
  all_goals first | (subst hk; rw [put_same]) | rw [key k hk]
  all_goals first | assumption | exact Nat.le_refl _ | skip
  · exact h5 i hi ho
  · obtain ⟨S, hS⟩ := hok k
    exact ⟨_, (hS.step hs).1⟩
  · exact hok k

end Verif.Net
