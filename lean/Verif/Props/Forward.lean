import Verif.Forward
import Verif.SignalAProofs
import Verif.Props.Mutable
import Verif.Props.MutableVec
import Verif.Props.MutableBTreeMap

/-!
# Wrappers, `debug` and serialization (property C70)
-/

namespace Verif

variable {α δ ρ : Type}

/-- **C70**, wrappers: a reference to a signal, a boxed or a pinned signal answers every sequence of
polls as the signal itself, panics included, and leaves it in the same state. -/
theorem C70_wrapped {σ : Type} (poll : Waker → σ → Option (Poll (Option ρ) × σ)) (ws : List Waker)
    (s : σ) : run (Wrapped.poll poll) ws ⟨s⟩ = (run poll ws s).map fun q => (q.1, ⟨q.2⟩) := by
  induction ws generalizing s with
  | nil => rfl
  | cons w ws ih =>
    simp only [run, Wrapped.poll]
    cases hp : poll w s with
    | none => rfl
    | some q =>
      obtain ⟨r, s'⟩ := q
      obtain (_ | a) | _ := r <;> simp only [ih]
      · rfl
      · cases run poll ws s' <;> rfl
      · cases run poll ws s' <;> rfl

/-- **C70**, `debug`: it polls its input exactly once per poll, with the waker it was given, passes
on the answer, and the log contains exactly the answers, in order. -/
theorem C70_debug (script : List (Poll (Option ρ))) (ws : List Waker) :
    ∃ outs s, run Dbg.poll ws (Dbg.init script) = some (outs, s) ∧
      outs = s.signal.hist.map (·.2) ∧ s.signal.hist.map (·.1) = ws.take outs.length ∧
      s.log = outs := by
  suffices ∀ d : Dbg ρ, ∃ outs s, run Dbg.poll ws d = some (outs, s) ∧
      ∃ h, s.signal.hist = d.signal.hist ++ h ∧ outs = h.map (·.2) ∧
        h.map (·.1) = ws.take outs.length ∧ s.log = d.log ++ outs by
    obtain ⟨outs, s, h1, h, h2, h3, h4, h5⟩ := this (Dbg.init script)
    have h2' : s.signal.hist = h := by simpa [Dbg.init, Src.mk'] using h2
    exact ⟨outs, s, h1, by rw [h2', h3], by rw [h2', h4], by simpa [Dbg.init] using h5⟩
  induction ws with
  | nil => exact fun d => ⟨[], d, rfl, [], by simp, rfl, rfl, by simp⟩
  | cons w ws ih =>
    intro d
    have hh := Src.poll_hist w d.signal
    obtain ⟨r, s', e⟩ : ∃ r s', d.signal.poll w = (r, s') := ⟨_, _, rfl⟩
    rw [e] at hh
    obtain ⟨outs, s, h1, h, h2, h3, h4, h5⟩ := ih ⟨s', d.log ++ [r]⟩
    simp only at hh h2
    simp only [run, Dbg.poll, e]
    obtain (_ | a) | _ := r
    · exact ⟨_, _, rfl, [(w, .ready none)], hh, rfl, rfl, rfl⟩
    · simp only [h1]
      exact ⟨_, _, rfl, (w, .ready (some a)) :: h, by simp [h2, hh], by simp [h3], by simp [h4],
        by simp [h5]⟩
    · simp only [h1]
      exact ⟨_, _, rfl, (w, .pending) :: h, by simp [h2, hh], by simp [h3], by simp [h4],
        by simp [h5]⟩

/-- **C70**, serialization of a `Mutable`: reading back what was written gives a `Mutable` with the
value at the time of writing, one handle and no signals; the first poll of any signal of it gives
its current value. -/
theorem C70_mutable (f : Format α δ) (a : α) (es : List (Mut.Ev α)) (os : List (Mut.Obs α))
    (m : Mut.World α) (h : (Mut.World.new a).runs es = some (os, m)) :
    ∃ m', Mut.World.deserialize f (m.serialize f) = some m' ∧ m'.value = Mut.valueAfter a es ∧
      m'.handles = 1 ∧ m'.cells = 0 ∧
      ∀ es' os' m'' i x, m'.runs (es' ++ [.poll i x]) = some (os', m'') → (∀ x, .poll i x ∉ es') →
        os'.getLast? = some (.poll (.ready (some (Mut.valueAfter (Mut.valueAfter a es) es')))) := by
  have hv := (Mut.C34_refines a es os m h).2.2
  refine ⟨Mut.World.new m.value, by simp [Mut.World.deserialize, Mut.World.serialize, f.round], hv,
    rfl, rfl, fun es' os' m'' i x hr hn => ?_⟩
  obtain ⟨r, h1, h2, -⟩ := Mut.C31_C32_C33_poll m.value es' i x os' m'' hr
  rw [h1, h2 (.inl hn), hv]

/-- **C70**, serialization of a `MutableVec`: reading back what was written gives a `MutableVec` with
the contents at the time of writing, one handle and no subscribers, and every subscriber of it that
has received everything has its contents. -/
theorem C70_mutable_vec (f : Format (List α) δ) (vs : List α) (h : List (MutVec.Ev α))
    (w : MutVec.World α) (_hr : (MutVec.World.init vs).runs h = some w) :
    ∃ w', MutVec.World.deserialize f (w.serialize f) = some w' ∧ w'.values = w.values ∧
      w'.handles = 1 ∧ w'.chans = [] ∧
      ∀ h' w'' j cx, w'.runs h' = some w'' → w''.rxLive j = true →
        (∀ d, (w''.pollRx j cx).1 ≠ .ready (some d)) →
        replay (MutVec.received j w' h') [] = some w''.values :=
  ⟨MutVec.World.init w.values, by simp [MutVec.World.deserialize, MutVec.World.serialize, f.round],
    rfl, rfl, rfl, fun h' w'' j cx hr hl hp => MutVec.C01_caught_up _ h' w'' hr j hl cx hp⟩

variable {K V : Type} [LinearOrder K]

/-- **C70**, serialization of a `MutableBTreeMap`, likewise. -/
theorem C70_mutable_map (f : Format (MutMap.BMap K V) δ) (vs : MutMap.BMap K V)
    (h : List (MutMap.Ev K V)) (w : MutMap.World K V)
    (_hr : (MutMap.World.init vs).runs h = some w) :
    ∃ w', MutMap.World.deserialize f (w.serialize f) = some w' ∧ w'.values.1 = w.values.1 ∧
      w'.hub.handles = 1 ∧ w'.hub.links = [] ∧
      ∀ h' w'' j cx, w'.runs h' = some w'' → w''.hub.rxLive j = true →
        (∀ d, (w''.hub.pollRx j cx).1 ≠ .ready (some d)) →
        mreplay (MutMap.received j w' h') noKeys = some (mapOf w''.values.1) :=
  ⟨MutMap.World.init w.values, by simp [MutMap.World.deserialize, MutMap.World.serialize, f.round],
    rfl, rfl, rfl, fun h' w'' j cx hr hl hp => MutMap.C24_caught_up _ h' w'' hr j hl cx hp⟩

/-! ## Non-vacuity -/

example : run (Dbg.poll) [0, 1, 2] (Dbg.init [.ready (some 1), .pending, .ready none]) =
    some ([.ready (some 1), .pending, .ready none],
      ⟨⟨[], [(0, .ready (some 1)), (1, .pending), (2, .ready none)]⟩,
        [.ready (some 1), .pending, .ready none]⟩) := by rfl

example : run (Wrapped.poll Dbg.poll) [0, 1] ⟨Dbg.init [.ready (some 1), .ready none]⟩ =
    some ([.ready (some 1), .ready none],
      ⟨⟨⟨[], [(0, .ready (some 1)), (1, .ready none)]⟩, [.ready (some 1), .ready none]⟩⟩) := by rfl

/-- A format: numbers in unary. -/
def unary : Format Nat (List Unit) :=
  ⟨fun n => List.replicate n (), fun l => some l.length, fun a => by simp⟩

example : ∃ os m m', (Mut.World.new 1).runs [.signal, .set 3] = some (os, m) ∧
    m.serialize unary = [(), (), ()] ∧ Mut.World.deserialize unary (m.serialize unary) = some m' ∧
    m'.value = 3 := ⟨_, _, _, rfl, rfl, rfl, rfl⟩

/-- Another one: lists as they are. -/
def plain : Format (List Nat) (List Nat) := ⟨id, some, fun _ => rfl⟩

example : ∃ w w' w'', (MutVec.World.init [1, 2]).runs [.op (.push 3)] = some w ∧
    MutVec.World.deserialize plain (w.serialize plain) = some w' ∧
    w'.runs [.subscribe, .poll 0 7] = some w'' ∧ w''.rxLive 0 = true ∧
    (w''.pollRx 0 7).1 = .pending ∧
    MutVec.received 0 w' [.subscribe, .poll 0 7] = [.replace [1, 2, 3]] :=
  ⟨_, _, _, rfl, rfl, rfl, rfl, rfl, rfl⟩

end Verif
