import Verif.Same

/-!
# The one-input combinators as loops (used by C101)
-/

namespace Verif

variable {α β γ σ τ κ : Type}

theorem SMap.loops (f : κ → α → β × κ) :
    Loops (SMap.poll f) (·.signal) (fun src s => ⟨src, s⟩) (fun s a => .ret (f s a).2 (f s a).1) where
  poll_eq := by
    rintro w ⟨todo, hist⟩ s
    rcases todo with _ | ⟨r, rs⟩
    · rfl
    · rcases r with (_ | a) | _ <;> rfl
  input_eq := fun _ _ => rfl

theorem SInspect.loops (f : κ → α → κ) :
    Loops (SInspect.poll f) (·.signal) (fun src s => ⟨src, s⟩) (fun s a => .ret (f s a) a) where
  poll_eq := by
    rintro w ⟨todo, hist⟩ s
    rcases todo with _ | ⟨r, rs⟩
    · rfl
    · rcases r with (_ | a) | _ <;> rfl
  input_eq := fun _ _ => rfl

theorem SMaybe.loops {ε : Type} (f : α → γ) (g : ε → γ) :
    ∀ (u : SigTrace α) (t : SigTrace γ),
      (∃ s, run (SMaybe.poll f g) (t.map (·.1)) (SMaybe.signal (Src.mk' (u.map (·.2)))) = some (t.map (·.2), s) ∧
        s.hist = u) ↔ Thru (fun (_ : Unit) a => .ret () (f a)) () u t := by
  have hl : Loops (SMaybe.poll f g) (fun | .signal s => s | .value _ => Src.mk' [])
      (fun src (_ : Unit) => SMaybe.signal src) (fun (_ : Unit) a => .ret () (f a)) := {
    poll_eq := by
      rintro w ⟨todo, hist⟩ s
      rcases todo with _ | ⟨r, rs⟩
      · rfl
      · rcases r with (_ | a) | _ <;> rfl
    input_eq := fun _ _ => rfl }
  intro u t
  rw [← hl.rel (init := fun script => SMaybe.signal (Src.mk' script)) (fun _ => rfl)]
  refine exists_congr fun s => and_congr_right fun _ => ?_
  cases s <;> rfl

theorem SEq.loops [BEq α] (v : α) :
    Loops SEq.poll (·.signal) (fun src s => ⟨src, s, v⟩) (eqBody v) where
  poll_eq := by
    intro w src s
    simp only [SEq.poll]
    rcases src.loop w (eqBody v) s with ⟨r, s', src'⟩
    cases r <;> rfl
  input_eq := fun _ _ => rfl

theorem SNeq.loops [BEq α] (v : α) :
    Loops SNeq.poll (·.signal) (fun src s => ⟨src, s, v⟩) (neqBody v) where
  poll_eq := by
    intro w src s
    simp only [SNeq.poll]
    rcases src.loop w (neqBody v) s with ⟨r, s', src'⟩
    cases r <;> rfl
  input_eq := fun _ _ => rfl

theorem SDedupeMap.loops [BEq α] (f : κ → α → (β × α) × κ) :
    Loops (SDedupeMap.poll f) (·.signal) (fun src s => ⟨s.1, src, s.2⟩) (dedupeBody f) where
  poll_eq := by
    intro w src s
    simp only [SDedupeMap.poll]
    rcases src.loop w (dedupeBody f) s with ⟨r, s', src'⟩
    cases r <;> rfl
  input_eq := fun _ _ => rfl

theorem SFilterMap.loops (f : κ → α → Option β × κ) :
    Loops (SFilterMap.poll f) (·.signal) (fun src s => ⟨src, s.1, s.2⟩) (filterMapSBody f) where
  poll_eq := by
    intro w src s
    simp only [SFilterMap.poll]
    rcases src.loop w (filterMapSBody f) s with ⟨r, s', src'⟩
    cases r <;> rfl
  input_eq := fun _ _ => rfl

theorem MMapValue.loops {K V W : Type} (f : κ → V → W × κ) :
    Loops (MMapValue.poll (K := K) f) (·.signal) (fun src s => ⟨src, s⟩)
      (fun s d => .ret (d.mapS f s).2 (d.mapS f s).1) where
  poll_eq := by
    rintro w ⟨todo, hist⟩ s
    rcases todo with _ | ⟨r, rs⟩
    · rfl
    · rcases r with (_ | a) | _ <;> rfl
  input_eq := fun _ _ => rfl

theorem VMap.loops (f : κ → α → β × κ) :
    Loops (VMap.poll f) (·.signal) (fun src s => ⟨src, s⟩) (fun s d => .ret (d.mapS f s).2 (d.mapS f s).1) where
  poll_eq := by
    rintro w ⟨todo, hist⟩ s
    rcases todo with _ | ⟨r, rs⟩
    · rfl
    · rcases r with (_ | a) | _ <;> rfl
  input_eq := fun _ _ => rfl

theorem VFilterMap.loops (f : κ → α → Option β × κ) :
    Loops (VFilterMap.poll f) (·.signal) (fun src s => ⟨s.1, src, s.2⟩) (filterMapBody f) where
  poll_eq := by
    intro w src s
    simp only [VFilterMap.poll]
    rcases src.loop w (filterMapBody f) s with ⟨r, s', src'⟩
    cases r <;> rfl
  input_eq := fun _ _ => rfl

/-- A loop that passes every item on unchanged. -/
theorem thru_id (u t : List (Waker × Poll (Option α))) :
    Thru (fun (_ : Unit) (a : α) => .ret () a) () u t ↔
      u = t ∧ ∀ t1 w t2, t = t1 ++ (w, .ready none) :: t2 → t2 = [] := by
  constructor
  · intro h
    generalize hs : () = s at h
    induction h with
    | nil s => simp
    | pend s w _ ih =>
      obtain ⟨rfl, ih⟩ := ih hs
      refine ⟨rfl, fun t1 v t2 h => ?_⟩
      cases t1 with
      | nil => simp at h
      | cons q t1 => exact ih t1 v t2 (List.cons.inj h).2
    | stop s w =>
      refine ⟨rfl, fun t1 v t2 h => ?_⟩
      cases t1 with
      | nil => exact (by simpa using h : _ ∧ _).2
      | cons q t1 => simp at h
    | keep w hb _ ih =>
      obtain ⟨rfl, ih2⟩ := ih rfl
      cases hb
      refine ⟨rfl, fun t1 v t2 h => ?_⟩
      cases t1 with
      | nil => simp at h
      | cons q t1 => exact ih2 t1 v t2 (List.cons.inj h).2
    | skip hb _ ih => cases hb
  · rintro ⟨rfl, h⟩
    induction u with
    | nil => exact .nil _
    | cons q u ih =>
      have ih := ih fun t1 w t2 hq => h (q :: t1) w t2 (by rw [hq]; rfl)
      rcases q with ⟨w, (_ | a) | _⟩
      · cases h [] w u rfl
        exact .stop _ _
      · exact .keep _ rfl ih
      · exact .pend _ _ ih

/-- A loop leaves no poll after the end. -/
theorem Thru.fused {body : σ → α → Ctl σ β} {s : σ} {u t} (h : Thru body s u t) :
    ∀ t1 w t2, t = t1 ++ (w, .ready none) :: t2 → t2 = [] := by
  induction h with
  | nil s => simp
  | pend s w _ ih =>
    intro t1 v t2 h
    cases t1 with
    | nil => simp at h
    | cons q t1 => exact ih t1 v t2 (List.cons.inj h).2
  | stop s w =>
    intro t1 v t2 h
    cases t1 with
    | nil => exact (by simpa using h : _ ∧ _).2
    | cons q t1 => simp at h
  | keep w hb _ ih =>
    intro t1 v t2 h
    cases t1 with
    | nil => simp at h
    | cons q t1 => exact ih t1 v t2 (List.cons.inj h).2
  | skip hb _ ih => exact ih

end Verif
