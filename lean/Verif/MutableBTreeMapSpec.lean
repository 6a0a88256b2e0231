import Verif.MutableBTreeMap

/-!
# Specification of `MutableBTreeMap`
-/

namespace Verif.MutMap

variable {K V : Type} [LinearOrder K]

/-- What each method does, on maps as partial functions: the value returned and the new map. -/
def Op.spec : Op K V → (K → Option V) → Ret V × (K → Option V)
  | .clear, _ => (.unit, fun _ => none)
  | .remove key, m => (.opt (m key), fun k => if k = key then none else m k)
  | .replaceCloned values, _ => (.unit, mapOf values.1)
  | .replace values, _ => (.unit, mapOf values.1)
  | .insertCloned key value, m => (.opt (m key), fun k => if k = key then some value else m k)
  | .insert key value, m => (.opt (m key), fun k => if k = key then some value else m k)

/-- The diffs that subscriber `id` received during a history: the `Ready(Some(diff))` answers to
its polls, in order. -/
def received (id : Nat) : World K V → List (Ev K V) → List (MapDiff K V)
  | _, [] => []
  | w, e :: es =>
    let now := match e with
      | .poll i cx =>
        if i = id ∧ w.hub.rxLive id = true then
          match (w.hub.pollRx id cx).1 with
          | .ready (some d) => [d]
          | _ => []
        else []
      | _ => []
    match w.step e with
    | none => now
    | some w' => now ++ received id w' es

end Verif.MutMap
