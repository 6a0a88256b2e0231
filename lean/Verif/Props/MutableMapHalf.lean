import Verif.Props.MutableMapTorn

/-!
# C79, continued: a panic of `clone` that is caught under the guard
-/

namespace Verif.MutMapPanic

open MutMap
open MutVecPanic (Outcome)

variable {K V : Type} [LinearOrder K]

/-- **C79** (a panic that is caught under the guard).  Suppose that `clone` panics while `insert_cloned` broadcasts a new
key, and that the holder of the guard of `lock_mut` catches the panic, so that the lock is not poisoned
(`std::sync::RwLock`, external) and the map stays in use.  The next `insert` of that key sends an `Update` to all.  It
applies for the subscribers that were told of the key; for all those from `cut` on, it is an update of a key which they do
not have. -/
theorem C79_caught (vs : BMap K V) (es : List (PEv K V)) (os : List Outcome) (p p' : PWorld K V)
    (h : (PWorld.init vs).runs es = some (os, p)) (key : K) (value v : V) (hn : mapOf p.w.values.1 key = none) (k : Nat)
    (hs : p.step (.clonePanics (.insertCloned key value) (k + 1)) = some (.panicked, p')) :
    ∃ cut, cut ∈ p.w.hub.senders ∧ (p.w.hub.senders.filter (· < cut)).length = k ∧
      ∃ r w, p'.w.exec (.insert key v) = some (r, w) ∧
        ∀ (id : Nat) c, w.hub.links[id]? = some c → c.rxAlive = true →
          (id < cut → mreplay (c.delivered ++ c.queue) noKeys = some (mapOf w.values.1)) ∧
          (cut ≤ id → mreplay (c.delivered ++ c.queue) noKeys = none) := by
  have hst := hs
  rcases C79_map_torn vs es os p p' h _ _ hs with ⟨h0, -⟩ | ⟨hv, cut, hc1, hc2, hc3⟩
  · cases h0
  refine ⟨cut, hc1, hc2, ?_⟩
  have hm := (hc3 [] [] p' rfl).2
  have hkey : mapOf p'.w.values.1 key = some value := by
    rw [hv]
    simp [Op.spec]
  simp only [PWorld.step] at hst
  split at hst
  · cases hst
  rename_i hh
  split at hst
  · cases hst
  rename_i hpo
  rcases hw' : clonePanics p.w (.insertCloned key value) (k + 1) with _ | w' <;> rw [hw'] at hst
  · cases hst
  cases hst
  obtain ⟨hi, -⟩ := clean_inv h (by simpa using hpo)
  rcases clonePanics_full hw' with ⟨h0, -⟩ | ⟨-, -, d, -, g3⟩
  · cases h0
  obtain ⟨a1, -, a3, -⟩ := hub_notifySome hi.wf hh d (k + 1 - 1)
  rw [← g3] at a1 a3
  obtain ⟨-, b2, -⟩ := hub_notify a1 (by rw [a3]; exact hh) (MapDiff.update key v)
  have he := exec_eq w' (.insert key v)
  have hd : Op.diffs (.insert key v) w'.values = [.update key v] := by
    simp only [Op.diffs]
    rw [hkey]
    rfl
  rw [hd] at he
  refine ⟨_, _, he, fun id c hc ha => ?_⟩
  have hc' := (b2 id).symm.trans hc
  obtain ⟨c0, hc0, rfl⟩ := Option.map_eq_some_iff.1 hc'
  have ha0 : c0.rxAlive = true := by
    cases hb : c0.rxAlive
    · simp [hubPush, hb] at ha
    · rfl
  have hr := hm id c0 hc0 ha0
  rw [hubPush, if_pos ha0]
  show (_ → mreplay (c0.delivered ++ (c0.queue ++ [MapDiff.update key v])) noKeys = _) ∧
    (_ → mreplay (c0.delivered ++ (c0.queue ++ [MapDiff.update key v])) noKeys = none)
  rw [← List.append_assoc, mreplay_append_some hr]
  constructor
  · intro hlt
    rw [if_pos hlt, ← hd]
    exact diffs_replay (.insert key v) w'.values
  · intro hge
    rw [if_neg (by omega)]
    simp [mreplay, MapDiff.apply, hn]

/-- Three subscribers; `insert_cloned` of key 0 reaches only the first, then `insert` of the same key sends an `Update`. -/
example : ∃ os p p', (PWorld.init (BMap.empty : BMap Nat Nat)).runs
      [.call .subscribe, .call .subscribe, .call .subscribe, .call (.op (.insert 1 2))] = some (os, p) ∧
    mapOf p.w.values.1 0 = none ∧ p.step (.clonePanics (.insertCloned 0 9) (1 + 1)) = some (.panicked, p') ∧
    ∃ r w, p'.w.exec (.insert 0 8) = some (r, w) ∧ w.values.1 = [(0, 8), (1, 2)] ∧
      w.hub.links.map (fun c => c.delivered ++ c.queue) =
        [[.insert 1 2, .insert 0 9, .update 0 8], [.insert 1 2, .update 0 8], [.insert 1 2, .update 0 8]] :=
  ⟨_, _, _, rfl, rfl, rfl, _, _, rfl, rfl, rfl⟩

end Verif.MutMapPanic
