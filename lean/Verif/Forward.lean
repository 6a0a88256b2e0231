import Verif.Input
import Verif.Mutable
import Verif.MutableVec
import Verif.MutableBTreeMap

/-!
# Model of the wrappers that only pass on, of `debug`, and of serialization

Features `debug` and `serde`.  `log::trace!` and serde are external: a log is the list of what was
reported, and a format is a pair of functions.
-/

namespace Verif

variable {α : Type}

/-! ## Wrappers -/

/-- `&mut A`, `Box<A>` and `Pin<A>` as `Signal`, `SignalVec` and `SignalMap`; also what `boxed`,
`boxed_local` return (`/repo/src/signal/signal.rs:577-589`, `/repo/src/signal_vec.rs:562-574`,
`/repo/src/signal_map.rs:156-168`).  `inner` is the state of the wrapped value. -/
structure Wrapped (σ : Type) where
  inner : σ

/-- `poll_change`, `poll_vec_change`, `poll_map_change` of the wrappers:
`/repo/src/signal/signal.rs:32-61`, `/repo/src/signal_vec.rs:121-150`,
`/repo/src/signal_map.rs:63-96`; and `poll_change_unpin`, `poll_vec_change_unpin`,
`poll_map_change_unpin`: `/repo/src/signal/signal.rs:573-575`, `/repo/src/signal_vec.rs:558-560`,
`/repo/src/signal_map.rs:152-154`; and `MapRefSignal`, which calls the closure that the macro
`map_ref!` has made: `/repo/src/internal.rs:113-135`.  Pinning (`/repo/src/internal.rs:60-64`) has no
effect in the model, where values do not move. -/
def Wrapped.poll {σ β : Type} (poll : Waker → σ → Option (Poll β × σ)) (w : Waker) (s : Wrapped σ) :
    Option (Poll β × Wrapped σ) :=
  match poll w s.inner with
  | none => none
  | some (r, s') => some (r, ⟨s'⟩)

/-! ## `debug` -/

/-- `SignalDebug`, `/repo/src/signal/signal.rs:735-743`, and `SignalVecDebug`,
`/repo/src/signal_vec.rs:2273-2281` (for a `SignalVec`, `ρ` is a `VecDiff`), with what was logged.
The location of the call of `debug` is left out. -/
structure Dbg (ρ : Type) where
  signal : Src (Option ρ)
  log : List (Poll (Option ρ))

/-- `SignalExt::debug`, `/repo/src/signal/signal.rs:550-559`; `SignalVecExt::debug`,
`/repo/src/signal_vec.rs:379-388`. -/
def Dbg.init {ρ : Type} (script : List (Poll (Option ρ))) : Dbg ρ := ⟨Src.mk' script, []⟩

/-- `SignalDebug::poll_change`, `/repo/src/signal/signal.rs:749-757`;
`SignalVecDebug::poll_vec_change`, `/repo/src/signal_vec.rs:2287-2295`. -/
def Dbg.poll {ρ : Type} (w : Waker) (d : Dbg ρ) : Option (Poll (Option ρ) × Dbg ρ) :=
  match d.signal.poll w with
  | (r, s) => some (r, ⟨s, d.log ++ [r]⟩)

/-! ## Serialization -/

/-- A format that serde can write and read. -/
structure Format (α δ : Type) where
  ser : α → δ
  de : δ → Option α
  round : ∀ a, de (ser a) = some a

/-- `Serialize for Mutable`, `/repo/src/signal/mutable.rs:358-363`. -/
def Mut.World.serialize {δ : Type} (f : Format α δ) (m : Mut.World α) : δ := f.ser m.value

/-- `Deserialize for Mutable`, `/repo/src/signal/mutable.rs:366-371`. -/
def Mut.World.deserialize {δ : Type} (f : Format α δ) (d : δ) : Option (Mut.World α) :=
  (f.de d).map Mut.World.new

/-- `Serialize for MutableVec`, `/repo/src/signal_vec.rs:3437-3442`. -/
def MutVec.World.serialize {δ : Type} (f : Format (List α) δ) (w : MutVec.World α) : δ := f.ser w.values

/-- `Deserialize for MutableVec`, `/repo/src/signal_vec.rs:3445-3450`. -/
def MutVec.World.deserialize {δ : Type} (f : Format (List α) δ) (d : δ) : Option (MutVec.World α) :=
  (f.de d).map MutVec.World.init

variable {K V : Type} [LinearOrder K]

/-- `Serialize for MutableBTreeMap`, `/repo/src/signal_map.rs:902-907`. -/
def MutMap.World.serialize {δ : Type} (f : Format (MutMap.BMap K V) δ) (w : MutMap.World K V) : δ :=
  f.ser w.values

/-- `Deserialize for MutableBTreeMap`, `/repo/src/signal_map.rs:910-915`. -/
def MutMap.World.deserialize {δ : Type} (f : Format (MutMap.BMap K V) δ) (d : δ) :
    Option (MutMap.World K V) :=
  (f.de d).map MutMap.World.init

end Verif
