import Verif.HubPanic
import Verif.MutableVecHub
import Verif.Props.MutableVecPanic

/-!
# A `clone` that panics in the middle of a call on a `MutableVec` (property C79)

Model: `Verif/MutableVecPanic.lean`.  `(PWorld.init vs).runs es = some (os, p)`: the history `es`, in
which calls may panic, is possible and its calls end as `os` says.  `completed` and `contents` are in
`Verif/Props/MutableVecPanic.lean`, `replay` in `Verif/VecDiff.lean`.
-/

namespace Verif.MutVecPanic

open MutVec
open HubConc (hubOf linkOf hubOf_send hubOf_values hubOf_notifyAll hubOf_rxLive hubOf_pollRx hubOf_dropRx
  hubOf_dropHandle hubOf_signalVec hubOf_links)

variable {α β : Type}

/-! ## Specification -/

/-- The diffs that subscriber `id` received: the `Ready(Some(diff))` answers to its polls, in order. -/
def got (id : Nat) : PWorld α → List (PEv α) → List (VecDiff α)
  | _, [] => []
  | p, e :: es =>
    (match e with
      | .call (.poll i cx) =>
        if i = id ∧ p.w.rxLive id = true then
          match (p.w.pollRx id cx).1 with
          | .ready (some d) => [d]
          | _ => []
        else []
      | _ => []) ++
    match p.step e with
    | none => []
    | some (_, p') => got id p' es

/-- If this event panics, then in the middle of the method `o`: `clone` had been called before. -/
def PEv.TornIn : PEv α → Op α → Prop
  | .clonePanics o (_ + 1), o' => o' = o
  | .extendClonePanics _ a (_ + 1), o' => o' = .pushCloned a
  | _, _ => False

/-- A panic happened in the middle of the method `o`. -/
def InFlight (es : List (PEv α)) (os : List Outcome) (o : Op α) : Prop :=
  ∃ (i : Nat) (e : PEv α), es[i]? = some e ∧ os[i]? = some .panicked ∧ e.TornIn o

/-! ## Lemmas -/

theorem hubOf_retainSome (d : VecDiff α) (n : Nat) (ss : List Nat) (w : World α) :
    hubSome d n ss (hubOf w) = ((retainSome d n ss w).1, hubOf (retainSome d n ss w).2) := by
  induction n generalizing ss w with
  | zero => rfl
  | succ n ih =>
    cases ss with
    | nil => rfl
    | cons s ss => simp only [hubSome, retainSome, hubOf_send, ih]

theorem notifyWithPanics_spec {w w' : World α} {v : β} {change : World α → β → Option (World α)}
    {mk : β → VecDiff α} {k : Nat} (h : notifyWithPanics w v change mk k = some w') :
    (k = 0 ∧ w' = w) ∨ ∃ n w1, k = n + 1 ∧ change w v = some w1 ∧
      hubOf w' = (hubOf w1).notifySome (mk v) n := by
  cases k with
  | zero =>
    simp only [notifyWithPanics] at h
    split at h
    · simp at h
    · exact .inl ⟨rfl, by simpa using h.symm⟩
  | succ n =>
    simp only [notifyWithPanics] at h
    split at h
    · cases hc : change w v with
      | none => simp [hc] at h
      | some w1 =>
        simp only [hc, Option.some.injEq] at h
        subst h
        refine .inr ⟨n, w1, rfl, rfl, ?_⟩
        have : (hubOf w1).senders = w1.senders := rfl
        simp only [Hub.notifySome, this, hubOf_retainSome]
        rfl
    · simp at h

/-- What a call leaves in the channels if `clone` panics: nothing, or a cut broadcast. -/
theorem clonePanics_spec {w w' : World α} {o : Op α} {k : Nat} (h : clonePanics w o k = some w') :
    (k = 0 ∧ w' = w) ∨ ∃ n d r, k = n + 1 ∧ o.spec w.values = some r ∧ o.diffs w.values = [d] ∧
      hubOf w' = (hubOf w).notifySome d n := by
  have hpush : ∀ a, pushClonePanics w a k = some w' → (k = 0 ∧ w' = w) ∨
      ∃ n, k = n + 1 ∧ hubOf w' = (hubOf w).notifySome (.push a) n := by
    intro a h
    rcases notifyWithPanics_spec h with h | ⟨n, w1, rfl, h1, h2⟩
    · exact .inl h
    · cases h1; exact .inr ⟨n, rfl, h2⟩
  have hins : ∀ i a, insertClonePanics w i a k = some w' → (k = 0 ∧ w' = w) ∨
      ∃ n, k = n + 1 ∧ i ≤ w.values.length ∧ hubOf w' =
        (hubOf w).notifySome (if i = w.values.length then .push a else .insertAt i a) n := by
    intro i a h
    simp only [insertClonePanics] at h
    split at h
    · rename_i hi
      rcases hpush a h with h | ⟨n, rfl, h2⟩
      · exact .inl h
      · exact .inr ⟨n, rfl, by omega, by rw [if_pos hi]; exact h2⟩
    · rename_i hi
      rcases notifyWithPanics_spec h with h | ⟨n, w1, rfl, h1, h2⟩
      · exact .inl h
      · simp only [vInsert] at h1
        split at h1
        · simp at h1
        · rename_i hv
          split at hv
          · simp only [Option.some.injEq] at h1
            subst h1
            exact .inr ⟨n, rfl, by assumption, by rw [if_neg hi]; exact h2⟩
          · simp at hv
  have hset : ∀ i a, setClonePanics w i a k = some w' → (k = 0 ∧ w' = w) ∨
      ∃ n, k = n + 1 ∧ i < w.values.length ∧ hubOf w' = (hubOf w).notifySome (.updateAt i a) n := by
    intro i a h
    rcases notifyWithPanics_spec h with h | ⟨n, w1, rfl, h1, h2⟩
    · exact .inl h
    · simp only [vSet] at h1
      split at h1
      · simp at h1
      · rename_i hv
        split at hv
        · simp only [Option.some.injEq] at h1
          subst h1
          exact .inr ⟨n, rfl, by assumption, h2⟩
        · simp at hv
  have hrep : ∀ vs, replaceClonePanics w vs k = some w' → (k = 0 ∧ w' = w) ∨
      ∃ n, k = n + 1 ∧ hubOf w' = (hubOf w).notifySome (.replace vs) n := by
    intro vs h
    rcases notifyWithPanics_spec h with h | ⟨n, w1, rfl, h1, h2⟩
    · exact .inl h
    · cases h1; exact .inr ⟨n, rfl, h2⟩
  cases o with
  | pushCloned a =>
    rcases hpush a h with h | ⟨n, rfl, h2⟩
    · exact .inl h
    · exact .inr ⟨n, _, _, rfl, rfl, rfl, h2⟩
  | insertCloned i a =>
    rcases hins i a h with h | ⟨n, rfl, hi, h2⟩
    · exact .inl h
    · refine .inr ⟨n, _, _, rfl, by simp only [Op.spec, hi, if_true]; rfl, ?_, h2⟩
      simp only [Op.diffs]; split <;> rfl
  | setCloned i a =>
    rcases hset i a h with h | ⟨n, rfl, hi, h2⟩
    · exact .inl h
    · exact .inr ⟨n, _, _, rfl, by simp only [Op.spec, hi, if_true]; rfl, rfl, h2⟩
  | replaceCloned vs =>
    rcases hrep vs h with h | ⟨n, rfl, h2⟩
    · exact .inl h
    · exact .inr ⟨n, _, _, rfl, rfl, rfl, h2⟩
  | applyVecDiff d =>
    cases d with
    | push a =>
      rcases hpush a h with h | ⟨n, rfl, h2⟩
      · exact .inl h
      · exact .inr ⟨n, _, _, rfl, rfl, rfl, h2⟩
    | insertAt i a =>
      rcases hins i a h with h | ⟨n, rfl, hi, h2⟩
      · exact .inl h
      · refine .inr ⟨n, _, _, rfl, by simp only [Op.spec, VecDiff.apply, vInsert, vSet, hi, if_true]; rfl, ?_, h2⟩
        simp only [Op.diffs]; split <;> rfl
    | updateAt i a =>
      rcases hset i a h with h | ⟨n, rfl, hi, h2⟩
      · exact .inl h
      · exact .inr ⟨n, _, _, rfl, by simp only [Op.spec, VecDiff.apply, vInsert, vSet, hi, if_true]; rfl, rfl, h2⟩
    | replace vs =>
      rcases hrep vs h with h | ⟨n, rfl, h2⟩
      · exact .inl h
      · exact .inr ⟨n, _, _, rfl, rfl, rfl, h2⟩
    | _ => simp [clonePanics] at h
  | _ => simp [clonePanics] at h

theorem exec_hub {w w' : World α} {o : Op α} {r : Ret α} (h : w.exec o = some (r, w')) :
    o.spec w.values = some (r, w'.values) ∧
      hubOf w' = (o.diffs w.values).foldl Hub.notify (hubOf w) := by
  rw [exec_eq] at h
  cases hs : o.spec w.values with
  | none => simp [hs] at h
  | some q =>
    simp only [hs, Option.map_some, Option.some.injEq, Prod.mk.injEq] at h
    obtain ⟨rfl, rfl⟩ := h
    exact ⟨rfl, by rw [hubOf_values, hubOf_notifyAll]⟩

/-- The events of the hub behind one event. -/
theorem step_hub {p p' : PWorld α} {e : PEv α} {o : Outcome} (hw : HubWF (hubOf p.w))
    (h : p.step e = some (o, p')) :
    ∃ hs, hubOf p'.w = (hubOf p.w).psteps hs ∧
      (∀ k cx, .ev (.poll k cx) ∈ hs → e = .call (.poll k cx)) ∧
      (∀ k, .ev (.dropRx k) ∈ hs → e = .call (.dropRx k)) := by
  have stay : hubOf p'.w = hubOf p.w → ∃ hs, hubOf p'.w = (hubOf p.w).psteps hs ∧
      (∀ k cx, .ev (.poll k cx) ∈ hs → e = .call (.poll k cx)) ∧
      (∀ k, .ev (.dropRx k) ∈ hs → e = .call (.dropRx k)) :=
    fun h => ⟨[], h, by simp, by simp⟩
  have one : ∀ e' : HubPEv (VecDiff α), hubOf p'.w = (hubOf p.w).pstep e' →
      (∀ k cx, e' = .ev (.poll k cx) → e = .call (.poll k cx)) →
      (∀ k, e' = .ev (.dropRx k) → e = .call (.dropRx k)) →
      ∃ hs, hubOf p'.w = (hubOf p.w).psteps hs ∧
      (∀ k cx, .ev (.poll k cx) ∈ hs → e = .call (.poll k cx)) ∧
      (∀ k, .ev (.dropRx k) ∈ hs → e = .call (.dropRx k)) :=
    fun e' h h1 h2 => ⟨[e'], h, fun k cx hm => h1 k cx (List.mem_singleton.1 hm).symm,
      fun k hm => h2 k (List.mem_singleton.1 hm).symm⟩
  have hhand : (hubOf p.w).handles = p.w.handles := rfl
  cases e with
  | call e =>
    cases e with
    | op op =>
      simp only [PWorld.step] at h
      split at h
      · simp at h
      · rename_i hh
        split at h
        · cases h; exact stay rfl
        · cases hx : p.w.exec op with
          | none => simp only [hx] at h; cases h; exact stay rfl
          | some q =>
            obtain ⟨r, w'⟩ := q
            simp only [hx] at h; cases h
            obtain ⟨-, h2⟩ := exec_hub hx
            exact ⟨_, h2.trans (notify_psteps _ hw hh).1, by simp, by simp⟩
    | subscribe =>
      simp only [PWorld.step] at h
      split at h
      · simp at h
      · rename_i hh
        split at h
        · cases h; exact stay rfl
        · cases h
          refine one (.ev (.subscribe (if p.w.values.length > 0 then [.replace p.w.values] else []))) ?_
            (by simp) (by simp)
          simp only [Hub.pstep, Hub.step, hhand, hh, if_false]
          exact hubOf_signalVec p.w
    | poll id cx =>
      simp only [PWorld.step] at h
      split at h
      · rename_i hl
        cases h
        refine one (.ev (.poll id cx)) ?_ (by simp) (by simp)
        simp only [Hub.pstep, Hub.step, hubOf_rxLive, hl, if_true, hubOf_pollRx]
      · simp at h
    | dropRx id =>
      simp only [PWorld.step] at h
      split at h
      · rename_i hl
        cases h
        refine one (.ev (.dropRx id)) ?_ (by simp) (by simp)
        simp only [Hub.pstep, Hub.step, hubOf_rxLive, hl, if_true, hubOf_dropRx]
      · simp at h
    | cloneHandle =>
      simp only [PWorld.step] at h
      split at h
      · simp at h
      · rename_i hh
        cases h
        refine one (.ev .cloneHandle) ?_ (by simp) (by simp)
        simp only [Hub.pstep, Hub.step, hhand, hh, if_false]
        rfl
    | dropHandle =>
      simp only [PWorld.step] at h
      split at h
      · simp at h
      · rename_i hh
        cases h
        refine one (.ev .dropHandle) ?_ (by simp) (by simp)
        simp only [Hub.pstep, Hub.step, hhand, hh, if_false, hubOf_dropHandle]
  | retainPanics f n =>
    simp only [PWorld.step] at h
    split at h
    · simp at h
    · split at h
      · cases h; exact stay rfl
      · split at h
        · cases h; exact stay rfl
        · simp at h
  | extendPanics as =>
    simp only [PWorld.step] at h
    split at h
    · simp at h
    · rename_i hh
      split at h
      · cases h; exact stay rfl
      · cases hx : p.w.extend as with
        | none => simp [hx] at h
        | some w' =>
          simp only [hx] at h; cases h
          obtain ⟨-, h2⟩ := exec_hub (o := .extend as) (w := p.w) (w' := w') (r := .unit)
            (by simp [World.exec, hx])
          exact ⟨_, h2.trans (notify_psteps _ hw hh).1, by simp, by simp⟩
  | guardPanics =>
    simp only [PWorld.step] at h
    split at h
    · simp at h
    · split at h <;> cases h <;> exact stay rfl
  | clonePanics op k =>
    simp only [PWorld.step] at h
    split at h
    · simp at h
    · rename_i hh
      split at h
      · cases h; exact stay rfl
      · split at h
        · rename_i w' hc
          cases h
          rcases clonePanics_spec hc with ⟨-, rfl⟩ | ⟨n, d, r, -, -, -, h3⟩
          · exact stay rfl
          · refine one (.cut d n) ?_ (by simp) (by simp)
            simp only [Hub.pstep, hhand, hh, if_false]
            exact h3
        · simp at h
  | extendClonePanics as a k =>
    simp only [PWorld.step] at h
    split at h
    · simp at h
    · rename_i hh
      split at h
      · cases h; exact stay rfl
      · cases hx : p.w.extend as with
        | none => simp [hx] at h
        | some w1 =>
          simp only [hx] at h
          obtain ⟨-, h2⟩ := exec_hub (o := .extend as) (w := p.w) (w' := w1) (r := .unit)
            (by simp [World.exec, hx])
          obtain ⟨g1, g2⟩ := notify_psteps (Op.diffs (.extend as) p.w.values) hw hh
          rw [← h2] at g1 g2
          split at h
          · rename_i w' hc
            cases h
            rcases clonePanics_spec (o := .pushCloned a) hc with ⟨-, rfl⟩ | ⟨n, d, r, -, -, -, h3⟩
            · exact ⟨_, g1, by simp, by simp⟩
            · refine ⟨(Op.diffs (.extend as) p.w.values).map (fun d => .ev (.notify d)) ++ [.cut d n],
                ?_, by simp, by simp⟩
              rw [psteps_append, ← g1]
              show hubOf w' = (hubOf w1).pstep (.cut d n)
              have : (hubOf w1).handles ≠ 0 := by rw [g2]; exact hh
              simp only [Hub.pstep, this, if_false]
              exact h3
          · simp at h
  | subscribePanics =>
    simp only [PWorld.step] at h
    split at h
    · simp at h
    · split at h
      · cases h; exact stay rfl
      · split at h
        · cases h; exact stay rfl
        · simp at h

theorem init_wf (vs : List α) : HubWF (hubOf (World.init vs)) :=
  ⟨by simp [World.init, hubOf], by simp [World.init, hubOf], by simp [World.init, hubOf],
   by simp [World.init, hubOf], by simp [World.init, hubOf], by simp [World.init, hubOf]⟩

theorem runs_wf {vs : List α} {es : List (PEv α)} {os : List Outcome} {p : PWorld α}
    (h : (PWorld.init vs).runs es = some (os, p)) : HubWF (hubOf p.w) := by
  refine runE_inv (Inv := fun (_ : List (PEv α)) (_ : List Outcome) (p : PWorld α) =>
    HubWF (hubOf p.w)) (m := PWorld.init vs) (init_wf vs) ?_ h
  intro es os s e o s' hi hs
  obtain ⟨l, h1, -⟩ := step_hub hi hs
  rw [h1]
  exact hub_psteps hi l

/-- What a live subscriber has been sent: everything, up to a method cut short. -/
def Shows (vs : List α) (es : List (PEv α)) (os : List Outcome) (l : List (VecDiff α)) : Prop :=
  replay l [] = some (contents vs (completed es os)) ∨
  ∃ o, InFlight es os o ∧ replay l [] = some (contents vs (completed es os ++ [.op o]))

/-- It can be replayed. -/
def CanReplay (l : List (VecDiff α)) : Prop := ∃ ys, replay l [] = some ys

theorem inFlight_snoc {es : List (PEv α)} {os : List Outcome} {o : Op α} (h : InFlight es os o)
    (e : PEv α) (x : Outcome) : InFlight (es ++ [e]) (os ++ [x]) o := by
  obtain ⟨i, e', h1, h2, h3⟩ := h
  refine ⟨i, e', ?_, ?_, h3⟩
  · rw [List.getElem?_append_left (List.getElem?_eq_some_iff.1 h1).1, h1]
  · rw [List.getElem?_append_left (List.getElem?_eq_some_iff.1 h2).1, h2]

theorem shows_prefix {vs : List α} {es : List (PEv α)} {os : List Outcome} {l m : List (VecDiff α)}
    (h : Shows vs es os (l ++ m)) : CanReplay l := by
  rcases h with h | ⟨o, -, h⟩ <;> exact replay_prefix (by rw [h]; rfl)

theorem tracks_diffs (ds : List (VecDiff α)) {x y : List α} {h : Hub (VecDiff α)} (hw : HubWF h)
    (hh : h.handles ≠ 0) (ht : Tracks (fun l => replay l [] = some x) CanReplay h)
    (hr : replay ds x = some y) :
    Tracks (fun l => replay l [] = some y) CanReplay (ds.foldl Hub.notify h) := by
  induction ds generalizing x h with
  | nil => cases hr; exact ht
  | cons d ds ih =>
    simp only [replay] at hr
    cases hd : d.apply x with
    | none => simp [hd] at hr
    | some x' =>
      simp only [hd] at hr
      obtain ⟨g1, -, g2, -⟩ := hub_notify hw hh d
      refine ih g1 (by rw [g2]; exact hh) (tracks_notify hw hh ht ?_) hr
      intro l hl
      rw [replay_snoc, hl]
      exact hd

theorem contents_op {vs l' : List α} {es : List (Ev α)} {o : Op α} {r : Ret α}
    (h : o.spec (contents vs es) = some (r, l')) : contents vs (es ++ [.op o]) = l' := by
  simp [contents_append, contents, h]

theorem contents_other {vs : List α} {es : List (Ev α)} {e : Ev α} (h : ∀ o, e ≠ .op o) :
    contents vs (es ++ [e]) = contents vs es := by
  rw [contents_append]
  cases e with
  | op o => exact absurd rfl (h o)
  | _ => rfl

/-- The invariant of a history with panics. -/
structure PInv (vs : List α) (es : List (PEv α)) (os : List Outcome) (p : PWorld α) : Prop where
  wf : HubWF (hubOf p.w)
  len : os.length = es.length
  tracks : Tracks (Shows vs es os) CanReplay (hubOf p.w)
  clean : p.poisoned = false → .panicked ∉ os ∧ p.w.values = contents vs (completed es os)

theorem pinv_init (vs : List α) : PInv vs [] [] (PWorld.init vs) :=
  ⟨init_wf vs, rfl, ⟨by simp [PWorld.init, World.init, hubOf], by simp [PWorld.init, World.init, hubOf]⟩,
    fun _ => ⟨by simp, rfl⟩⟩

theorem pinv_step {vs : List α} {es : List (PEv α)} {os : List Outcome} {p p' : PWorld α}
    {e : PEv α} {o : Outcome} (hi : PInv vs es os p) (h : p.step e = some (o, p')) :
    PInv vs (es ++ [e]) (os ++ [o]) p' := by
  have hwf' : HubWF (hubOf p'.w) := by
    obtain ⟨l, h1, -⟩ := step_hub hi.wf h
    rw [h1]; exact hub_psteps hi.wf l
  have hlen' : (os ++ [o]).length = (es ++ [e]).length := by simp [hi.len]
  have hcs := completed_snoc es os e o hi.len
  have mono : completed [e] [o] = [] → ∀ l, Shows vs es os l → Shows vs (es ++ [e]) (os ++ [o]) l := by
    intro he l hl
    unfold Shows
    rw [hcs, he, List.append_nil]
    exact hl.imp id fun ⟨x, h1, h2⟩ => ⟨x, inFlight_snoc h1 e o, h2⟩
  have mono1 : ∀ e', completed [e] [o] = [e'] → (∀ op, e' ≠ .op op) →
      ∀ l, Shows vs es os l → Shows vs (es ++ [e]) (os ++ [o]) l := by
    intro e' he hn l hl
    unfold Shows
    rw [hcs, he, contents_other hn]
    refine hl.imp id fun ⟨x, h1, h2⟩ => ⟨x, inFlight_snoc h1 e o, ?_⟩
    rw [contents_append, contents_other hn, ← contents_append]
    exact h2
  have exact0 : p.poisoned = false →
      Tracks (fun l => replay l [] = some p.w.values) CanReplay (hubOf p.w) := by
    intro hp
    obtain ⟨h1, h2⟩ := hi.clean hp
    refine tracks_mono hi.tracks fun l hl => ?_
    rcases hl with hl | ⟨x, ⟨i, e', -, h4, -⟩, -⟩
    · rw [h2]; exact hl
    · exact absurd (List.mem_of_getElem? h4) h1
  -- nothing changes in the channels, and nothing was completed
  have stay : hubOf p'.w = hubOf p.w → completed [e] [o] = [] →
      (p'.poisoned = false → p' = p ∧ o ≠ .panicked) → PInv vs (es ++ [e]) (os ++ [o]) p' := by
    intro hh he hp
    refine ⟨hwf', hlen', by rw [hh]; exact tracks_mono hi.tracks (mono he), fun hq => ?_⟩
    obtain ⟨rfl, hne⟩ := hp hq
    obtain ⟨h1, h2⟩ := hi.clean hq
    rw [hcs, he, List.append_nil]
    exact ⟨by simp [h1, hne.symm], h2⟩
  -- something that does not concern the contents
  have other : ∀ e', completed [e] [o] = [e'] → (∀ op, e' ≠ .op op) → o ≠ .panicked →
      (∀ R : List (VecDiff α) → Prop, (∀ l m, R (l ++ m) → CanReplay l) →
        Tracks R CanReplay (hubOf p.w) → Tracks R CanReplay (hubOf p'.w)) →
      p'.poisoned = p.poisoned → p'.w.values = p.w.values → PInv vs (es ++ [e]) (os ++ [o]) p' := by
    intro e' he hn hne ht hp hv
    refine ⟨hwf', hlen', ht _ (fun l m h => shows_prefix h) (tracks_mono hi.tracks (mono1 e' he hn)),
      fun hq => ?_⟩
    obtain ⟨h1, h2⟩ := hi.clean (hp ▸ hq)
    rw [hcs, he, contents_other hn, hv]
    exact ⟨by simp [h1, hne.symm], h2⟩
  -- a method that was completed
  have whole : ∀ op r, p.poisoned = false → completed [e] [o] = [.op op] → p.w.handles ≠ 0 →
      ∀ w1, p.w.exec op = some (r, w1) →
      w1.values = contents vs (completed (es ++ [e]) (os ++ [o])) ∧ HubWF (hubOf w1) ∧
        (hubOf w1).handles ≠ 0 ∧ Tracks (fun l => replay l [] = some w1.values) CanReplay (hubOf w1) := by
    intro op r hp he hh w1 hx
    obtain ⟨-, h2⟩ := hi.clean hp
    obtain ⟨g1, g2⟩ := exec_hub hx
    obtain ⟨g3, g4⟩ := notify_psteps (op.diffs p.w.values) hi.wf hh
    refine ⟨?_, ?_, ?_, ?_⟩
    · rw [hcs, he]; rw [h2] at g1; exact (contents_op g1).symm
    · rw [g2, g3]; exact hub_psteps hi.wf _
    · rw [g2, g4]; exact hh
    · rw [g2]; exact tracks_diffs _ hi.wf hh (exact0 hp) (replay_diffs op _ _ g1)
  -- a broadcast that was cut short
  have cut : ∀ (w0 : World α) op r d n, HubWF (hubOf w0) → (hubOf w0).handles ≠ 0 →
      Tracks (fun l => replay l [] = some w0.values) CanReplay (hubOf w0) →
      w0.values = contents vs (completed (es ++ [e]) (os ++ [o])) →
      op.spec w0.values = some r → op.diffs w0.values = [d] → e.TornIn op → o = .panicked →
      p'.poisoned = true → hubOf p'.w = (hubOf w0).notifySome d n →
      PInv vs (es ++ [e]) (os ++ [o]) p' := by
    intro w0 op r d n hw0 hh0 ht0 hv0 hsp hd hto ho hp hhub
    refine ⟨hwf', hlen', ?_, fun hq => by rw [hp] at hq; cases hq⟩
    rw [hhub]
    refine tracks_notifySome hw0 hh0 ht0 (fun l hl => .inl ?_) (fun l hl => .inr ⟨op, ?_, ?_⟩)
    · rw [← hv0]; exact hl
    · exact ⟨es.length, e, by simp, by rw [← hi.len]; simp [ho], hto⟩
    · have h1 := replay_diffs op _ _ hsp
      rw [hd] at h1
      rw [replay_append_some hl h1, Option.some.injEq]
      exact (contents_op (o := op) (r := r.1) (l' := r.2) (by rw [← hv0]; exact hsp)).symm
  cases e with
  | call e =>
    cases e with
    | op op =>
      simp only [PWorld.step] at h
      split at h
      · simp at h
      · rename_i hh
        split at h
        · cases h; exact stay rfl rfl (by simp)
        · rename_i hp
          have hp : p.poisoned = false := by simpa using hp
          cases hx : p.w.exec op with
          | none => simp only [hx] at h; cases h; exact stay rfl rfl (by simp)
          | some q =>
            obtain ⟨r, w'⟩ := q
            simp only [hx] at h; cases h
            obtain ⟨g1, -, -, g4⟩ := whole op r hp rfl hh w' hx
            exact ⟨hwf', hlen', tracks_mono g4 fun l hl => .inl (by rw [← g1]; exact hl),
              fun _ => ⟨by simp [(hi.clean hp).1], g1⟩⟩
    | subscribe =>
      simp only [PWorld.step] at h
      split at h
      · simp at h
      · rename_i hh
        split at h
        · cases h; exact stay rfl rfl (by simp)
        · rename_i hp
          have hp : p.poisoned = false := by simpa using hp
          cases h
          have hv : p.w.values = contents vs (completed (es ++ [.call .subscribe]) (os ++ [.done])) := by
            rw [hcs, (hi.clean hp).2]
            exact (contents_other (e := .subscribe) (by simp)).symm
          refine ⟨hwf', hlen', ?_, fun _ => ⟨by simp [(hi.clean hp).1], hv⟩⟩
          show Tracks _ _ (hubOf p.w.signalVec)
          rw [hubOf_signalVec]
          refine tracks_subscribe (tracks_mono hi.tracks (mono1 .subscribe rfl (by simp))) ?_ ⟨[], rfl⟩
          refine .inl ?_
          rw [← hv]
          cases p.w.values with
          | nil => rfl
          | cons a l => simp [replay, VecDiff.apply]
    | poll id cx =>
      simp only [PWorld.step] at h
      split at h
      · rename_i hl
        cases h
        refine other (.poll id cx) rfl (by simp) (by simp) ?_ rfl ?_
        · intro R hR ht
          have := tracks_poll ht id cx (by rw [hubOf_rxLive]; exact hl) hR
          rw [hubOf_pollRx] at this
          exact this
        · simp only [World.pollRx]
          cases p.w.chans[id]? with
          | none => rfl
          | some c =>
            simp only
            cases c.queue with
            | nil => simp only; split <;> rfl
            | cons d ds => rfl
      · simp at h
    | dropRx id =>
      simp only [PWorld.step] at h
      split at h
      · rename_i hl
        cases h
        refine other (.dropRx id) rfl (by simp) (by simp) ?_ rfl ?_
        · intro R hR ht
          have := tracks_dropRx ht id
          rw [hubOf_dropRx] at this
          exact this
        · simp only [World.dropRx]
          cases p.w.chans[id]? <;> rfl
      · simp at h
    | cloneHandle =>
      simp only [PWorld.step] at h
      split at h
      · simp at h
      · cases h
        exact other .cloneHandle rfl (by simp) (by simp) (fun R _ ht => ⟨ht.mirror, ht.sound⟩) rfl rfl
    | dropHandle =>
      simp only [PWorld.step] at h
      split at h
      · simp at h
      · cases h
        refine other .dropHandle rfl (by simp) (by simp) ?_ rfl ?_
        · intro R hR ht
          have := tracks_dropHandle ht
          rw [hubOf_dropHandle] at this
          exact this
        · simp only [World.dropHandle]
          split
          · simp [dropSenders_vals]
          · rfl
  | retainPanics f n =>
    simp only [PWorld.step] at h
    split at h
    · simp at h
    · split at h
      · cases h; exact stay rfl rfl (by simp)
      · split at h
        · cases h; exact stay rfl rfl (by simp)
        · simp at h
  | extendPanics as =>
    simp only [PWorld.step] at h
    split at h
    · simp at h
    · rename_i hh
      split at h
      · cases h; exact stay rfl rfl (by simp)
      · rename_i hp
        have hp : p.poisoned = false := by simpa using hp
        cases hx : p.w.extend as with
        | none => simp [hx] at h
        | some w' =>
          simp only [hx] at h; cases h
          obtain ⟨g1, -, -, g4⟩ := whole (.extend as) .unit hp rfl hh w' (by simp [World.exec, hx])
          exact ⟨hwf', hlen', tracks_mono g4 fun l hl => .inl (by rw [← g1]; exact hl), by simp⟩
  | guardPanics =>
    simp only [PWorld.step] at h
    split at h
    · simp at h
    · split at h <;> cases h <;> exact stay rfl rfl (by simp)
  | clonePanics op k =>
    simp only [PWorld.step] at h
    split at h
    · simp at h
    · rename_i hh
      split at h
      · cases h; exact stay rfl rfl (by simp)
      · rename_i hp
        have hp : p.poisoned = false := by simpa using hp
        split at h
        · rename_i w' hc
          cases h
          rcases clonePanics_spec hc with ⟨-, rfl⟩ | ⟨n, d, r, rfl, h1, h2, h3⟩
          · exact stay rfl rfl (by simp)
          · exact cut p.w op r d n hi.wf hh (exact0 hp)
              (by rw [hcs]; simp only [completed, List.append_nil]; exact (hi.clean hp).2)
              h1 h2 rfl rfl rfl h3
        · simp at h
  | extendClonePanics as a k =>
    simp only [PWorld.step] at h
    split at h
    · simp at h
    · rename_i hh
      split at h
      · cases h; exact stay rfl rfl (by simp)
      · rename_i hp
        have hp : p.poisoned = false := by simpa using hp
        cases hx : p.w.extend as with
        | none => simp [hx] at h
        | some w1 =>
          simp only [hx] at h
          split at h
          · rename_i w' hc
            cases h
            obtain ⟨g1, g2, g3, g4⟩ :=
              whole (.extend as) .unit hp rfl hh w1 (by simp [World.exec, hx])
            rcases clonePanics_spec (o := .pushCloned a) hc with ⟨-, rfl⟩ | ⟨n, d, r, rfl, h1, h2, h3⟩
            · exact ⟨hwf', hlen', tracks_mono g4 fun l hl => .inl (by rw [← g1]; exact hl), by simp⟩
            · exact cut w1 (.pushCloned a) r d n g2 g3 g4 g1 h1 h2 rfl rfl rfl h3
          · simp at h
  | subscribePanics =>
    simp only [PWorld.step] at h
    split at h
    · simp at h
    · split at h
      · cases h; exact stay rfl rfl (by simp)
      · split at h
        · cases h; exact stay rfl rfl (by simp)
        · simp at h

theorem pinv_runs {vs : List α} {es : List (PEv α)} {os : List Outcome} {p : PWorld α}
    (h : (PWorld.init vs).runs es = some (os, p)) : PInv vs es os p :=
  runE_inv (Inv := PInv vs) (pinv_init vs) (fun _ _ _ _ _ _ hi hs => pinv_step hi hs) h

/-- The answers to the polls are the delivery log. -/
theorem got_log {p p' : PWorld α} (hw : HubWF (hubOf p.w)) {es : List (PEv α)} {os : List Outcome}
    (h : p.runs es = some (os, p')) (k : Nat) :
    (hubOf p'.w).log k = (hubOf p.w).log k ++ got k p es := by
  induction es generalizing p os with
  | nil => cases h; simp [got]
  | cons e es ih =>
    simp only [PWorld.runs, runE] at h
    cases hs : p.step e with
    | none => simp [hs] at h
    | some q =>
      obtain ⟨o, p1⟩ := q
      simp only [hs] at h
      cases hr : runE PWorld.step p1 es with
      | none => simp [hr] at h
      | some q2 =>
        obtain ⟨os2, p2⟩ := q2
        simp only [hr, Option.some.injEq, Prod.mk.injEq] at h
        obtain ⟨rfl, rfl⟩ := h
        obtain ⟨l, h1, h2, -⟩ := step_hub hw hs
        have hw1 : HubWF (hubOf p1.w) := by rw [h1]; exact hub_psteps hw l
        rw [ih hw1 hr]
        simp only [got, hs]
        rw [← List.append_assoc]
        congr 1
        by_cases he : ∃ cx, e = .call (.poll k cx)
        · obtain ⟨cx, rfl⟩ := he
          simp only [PWorld.step] at hs
          split at hs
          · rename_i hl
            cases hs
            simp only [hl, and_self, if_true]
            have := hub_step_log hw (.poll k cx) k
            simp only [Hub.step, Hub.delivers, hubOf_rxLive, hl, and_self, if_true, hubOf_pollRx] at this
            rw [this]
            congr 1
            obtain (_ | d) | _ := (p.w.pollRx k cx).1 <;> rfl
          · simp at hs
        · have : (hubOf p1.w).log k = (hubOf p.w).log k := by
            rw [h1]
            exact hub_psteps_log hw l k fun cx hm => he ⟨cx, h2 k cx hm⟩
          rw [this]
          cases e with
          | call e =>
            cases e with
            | poll i cx =>
              have : i ≠ k := fun hk => he ⟨cx, by rw [hk]⟩
              simp [this]
            | _ => simp
          | _ => simp

theorem delivered_got {vs : List α} {es : List (PEv α)} {os : List Outcome} {p : PWorld α}
    (h : (PWorld.init vs).runs es = some (os, p)) {id : Nat} {c : Chan α}
    (hi : p.w.chans[id]? = some c) : c.delivered = got id (PWorld.init vs) es := by
  have := got_log (init_wf vs) h id
  simp only [Hub.log, hubOf_links, hi, Option.map_some, PWorld.init, World.init, List.getElem?_nil,
    Option.map_none, List.nil_append] at this
  exact this

/-! ## Theorems -/

/-- **C79.**  Whatever panicked (an index out of range, `clone` at any point of any method, the closure
of `retain`, the iterator of `extend`, code that holds the guard): the diffs a subscriber received
replay without panic; with those still queued for it, if it is live, they rebuild the contents that
the completed calls make, or those with the one method added that a panic cut short. -/
theorem C79_vec_mirror (vs : List α) (es : List (PEv α)) (os : List Outcome) (p : PWorld α)
    (h : (PWorld.init vs).runs es = some (os, p)) (id : Nat) (c : Chan α)
    (hi : p.w.chans[id]? = some c) :
    (∃ ys, replay (got id (PWorld.init vs) es) [] = some ys) ∧
    (c.rxAlive = true →
      replay (got id (PWorld.init vs) es ++ c.queue) [] = some (contents vs (completed es os)) ∨
      ∃ o, InFlight es os o ∧ replay (got id (PWorld.init vs) es ++ c.queue) [] =
        some (contents vs (completed es os ++ [.op o]))) := by
  have hp := pinv_runs h
  rw [← delivered_got h hi]
  have hl : (hubOf p.w).links[id]? = some (linkOf c) := by rw [hubOf_links, hi]; rfl
  exact ⟨hp.tracks.sound id _ hl, fun ha => hp.tracks.mirror id _ hl ha⟩

/-- **C79**, at most one call is cut short: in every history at most one call panics, apart from those
that find the lock poisoned. -/
theorem C79_vec_once (vs : List α) (es : List (PEv α)) (os : List Outcome) (p : PWorld α)
    (h : (PWorld.init vs).runs es = some (os, p)) (i j : Nat) (hi : os[i]? = some .panicked)
    (hj : os[j]? = some .panicked) : i = j := by
  have key := runE_inv (Inv := fun (_ : List (PEv α)) (os : List Outcome) (p : PWorld α) =>
    (.panicked ∈ os → p.poisoned = true) ∧
    ∀ i j : Nat, os[i]? = some .panicked → os[j]? = some .panicked → i = j) (m := PWorld.init vs)
    ⟨by simp, by simp⟩ ?_ h
  · exact key.2 i j hi hj
  · intro es os s e o s' ⟨h1, h2⟩ hs
    have hsp := step_poison hs
    have hfresh : s.poisoned = true → o ≠ .panicked := by
      intro hp ho
      subst ho
      cases e with
      | call e => cases e <;> simp only [PWorld.step, hp, if_true] at hs <;> split at hs <;> simp at hs
      | _ => simp only [PWorld.step, hp, if_true] at hs; split at hs <;> simp at hs
    refine ⟨fun hm => ?_, fun i j hi hj => ?_⟩
    · rcases List.mem_append.1 hm with hm | hm
      · exact hsp.1 (h1 hm)
      · exact hsp.2 (List.mem_singleton.1 hm).symm
    · have pos : ∀ i : Nat, (os ++ [o])[i]? = some .panicked →
          os[i]? = some .panicked ∨ (i = os.length ∧ o = .panicked) := by
        intro i hi
        rcases Nat.lt_or_ge i os.length with hl | hl
        · rw [List.getElem?_append_left hl] at hi; exact .inl hi
        · rw [List.getElem?_append_right hl] at hi
          cases hk : i - os.length with
          | zero => rw [hk] at hi; exact .inr ⟨by omega, by simpa using hi⟩
          | succ n => simp [hk] at hi
      rcases pos i hi with hi | ⟨rfl, rfl⟩ <;> rcases pos j hj with hj | ⟨rfl, ho⟩
      · exact h2 i j hi hj
      · exact absurd ho (hfresh (h1 (List.mem_of_getElem? hi)))
      · exact absurd rfl (hfresh (h1 (List.mem_of_getElem? hj)))
      · rfl

/-- **C79**, the end is still reported: whatever panicked, a live subscriber's poll answers the end iff
all handles are gone and nothing is queued for it, and `Pending` iff a handle lives and nothing is
queued. -/
theorem C79_vec_poll (vs : List α) (es : List (PEv α)) (os : List Outcome) (p : PWorld α)
    (h : (PWorld.init vs).runs es = some (os, p)) (id : Nat) (c : Chan α)
    (hi : p.w.chans[id]? = some c) (hl : c.rxAlive = true) (cx : Waker) :
    ((p.w.pollRx id cx).1 = .ready none ↔ p.w.handles = 0 ∧ c.queue = []) ∧
    ((p.w.pollRx id cx).1 = .pending ↔ p.w.handles ≠ 0 ∧ c.queue = []) := by
  have hw := runs_wf h
  have htx := hw.tx id (linkOf c) (by rw [hubOf_links, hi]; rfl) hl
  have htx : c.txAlive = true ↔ p.w.handles ≠ 0 := htx
  simp only [World.pollRx, hi]
  cases hq : c.queue with
  | cons d ds => simp
  | nil =>
    simp only
    by_cases hh : p.w.handles = 0
    · have : c.txAlive = false := by
        cases ht : c.txAlive with
        | false => rfl
        | true => exact absurd hh (htx.1 ht)
      simp [this, hh]
    · simp [htx.2 hh, hh]

/-- **C79**, no wake-up is lost: whatever panicked, if a subscriber's poll with waker `x` answered
`Pending` and it was neither polled nor dropped since, then `x` was woken since, or a new poll would
still answer `Pending`. -/
theorem C79_vec_wake (vs : List α) (es es' : List (PEv α)) (os os' : List Outcome) (p p' : PWorld α)
    (h : (PWorld.init vs).runs es = some (os, p)) (k : Nat) (x cx : Waker)
    (hpend : (p.w.pollRx k x).1 = .pending)
    (h' : p.runs (.call (.poll k x) :: es') = some (os', p'))
    (hp : ∀ cx, .call (.poll k cx) ∉ es') (hd : .call (.dropRx k) ∉ es') :
    ∃ new, p'.w.woken = p.w.woken ++ new ∧ (x ∈ new ∨ (p'.w.pollRx k cx).1 = .pending) := by
  have hw := runs_wf h
  simp only [PWorld.runs, runE] at h'
  cases hs : p.step (.call (.poll k x)) with
  | none => simp [hs] at h'
  | some q =>
    obtain ⟨o, p1⟩ := q
    simp only [hs] at h'
    cases hr : runE PWorld.step p1 es' with
    | none => simp [hr] at h'
    | some q2 =>
      obtain ⟨os2, p2⟩ := q2
      simp only [hr, Option.some.injEq, Prod.mk.injEq] at h'
      obtain ⟨-, rfl⟩ := h'
      have hw1 : HubWF (hubOf p1.w) := by
        obtain ⟨l, h1, -⟩ := step_hub hw hs
        rw [h1]; exact hub_psteps hw l
      -- after the poll the waker is registered
      have hreg : p1.w.woken = p.w.woken ∧
          ∃ c : Link (VecDiff α), (hubOf p1.w).links[k]? = some c ∧ c.waker = some x := by
        simp only [PWorld.step] at hs
        split at hs
        · rename_i hl
          cases hs
          simp only [hubOf_links]
          unfold World.rxLive at hl
          unfold World.pollRx at hpend ⊢
          cases hc : p.w.chans[k]? with
          | none => simp [hc] at hl
          | some c =>
            have hk := (List.getElem?_eq_some_iff.1 hc).1
            simp only [hc] at hpend ⊢
            cases hq : c.queue with
            | cons d ds => simp [hq] at hpend
            | nil =>
              simp only [hq] at hpend ⊢
              split
              · refine ⟨rfl, linkOf { c with waker := some x }, ?_, rfl⟩
                simp [hk, hq]
              · rename_i ht; simp [ht] at hpend
        · simp at hs
      obtain ⟨e1, c, hc, hx⟩ := hreg
      -- and stays until it is woken
      have key := runE_inv (Inv := fun (es : List (PEv α)) (_ : List Outcome) (q : PWorld α) =>
        (∀ cx, .call (.poll k cx) ∉ es) → .call (.dropRx k) ∉ es → HubWF (hubOf q.w) ∧
        ∃ new, q.w.woken = p.w.woken ++ new ∧ (x ∈ new ∨
          ∃ c' : Link (VecDiff α), (hubOf q.w).links[k]? = some c' ∧ c'.waker = some x))
        (m := p1) (fun _ _ => ⟨hw1, [], by simp [e1], .inr ⟨c, hc, hx⟩⟩) ?_ hr hp hd
      · obtain ⟨hw2, new, g1, g2⟩ := key
        refine ⟨new, g1, g2.imp id fun ⟨c', hc', hx'⟩ => ?_⟩
        obtain ⟨a1, a2, a3⟩ := hw2.waiting k c' x hc' hx'
        have : ((hubOf p2.w).pollRx k cx).1 = .pending := by simp [Hub.pollRx, hc', a1, a2]
        rw [hubOf_pollRx] at this
        exact this
      · intro es os s e o s' hinv hst hp hd
        obtain ⟨b1, new, b2, b3⟩ := hinv (fun cx hm => hp cx (by simp [hm])) (fun hm => hd (by simp [hm]))
        obtain ⟨l, l1, l2, l3⟩ := step_hub b1 hst
        refine ⟨by rw [l1]; exact hub_psteps b1 l, ?_⟩
        obtain ⟨n2, m1, m2⟩ := hub_psteps_wake b1 l
        rw [← l1] at m1
        have m1 : s'.w.woken = s.w.woken ++ n2 := m1
        refine ⟨new ++ n2, by rw [m1, b2, List.append_assoc], ?_⟩
        rcases b3 with b3 | ⟨c', c1, c2⟩
        · exact .inl (List.mem_append_left _ b3)
        · rw [l1]
          rcases m2 k c' x c1 c2 (fun cx hm => hp cx (by simp [l2 k cx hm]))
            (fun hm => hd (by simp [l3 k hm])) with m3 | m3
          · exact .inl (List.mem_append_right _ m3)
          · exact .inr m3

/-- Three subscribers; `clone` panics in the middle of `insert_cloned`; the first subscriber has been
sent the insertion, the others not; later calls panic; the subscribers end when the handle is
dropped. -/
def demoTorn : List (PEv Nat) :=
  [.call .subscribe, .call .subscribe, .call .subscribe, .call (.op (.push 3)),
   .clonePanics (.insertCloned 0 5) 2, .call (.op (.push 4)), .call (.poll 0 7), .call (.poll 0 7),
   .call (.poll 0 7), .call (.poll 1 8), .call (.poll 1 8), .call (.poll 1 8), .call .dropHandle]

/-- The hypotheses of the theorems above are met, and both alternatives of `C79_vec_mirror` occur. -/
example : ∃ os p, (PWorld.init [1]).runs demoTorn = some (os, p) ∧
    os = [.done, .done, .done, .done, .panicked, .poisoned, .done, .done, .done, .done, .done, .done,
      .done] ∧
    got 0 (PWorld.init [1]) demoTorn = [.replace [1], .push 3, .insertAt 0 5] ∧
    got 1 (PWorld.init [1]) demoTorn = [.replace [1], .push 3] ∧
    contents [1] (completed demoTorn os) = [1, 3] ∧
    contents [1] (completed demoTorn os ++ [.op (.insertCloned 0 5)]) = [5, 1, 3] ∧
    p.w.woken = [8] ∧ p.w.chans.map (fun c => c.queue) = [[], [], [.replace [1], .push 3]] :=
  ⟨_, _, rfl, rfl, rfl, rfl, rfl, rfl, rfl, rfl⟩

/-- The method cut short is the one that panicked. -/
example (os : List Outcome) (h : os[4]? = some .panicked) : InFlight demoTorn os (.insertCloned 0 5) :=
  ⟨4, _, rfl, h, rfl⟩

end Verif.MutVecPanic
