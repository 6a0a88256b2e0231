import Verif.HubPanic
import Verif.MutableBTreeMapPanic
import Verif.MutableBTreeMapProofs
import Mathlib.Data.Nat.Basic

/-!
# A `clone` that panics in the middle of a call on a `MutableBTreeMap` (property C79)

Model: `Verif/MutableBTreeMapPanic.lean`.  `(PWorld.init vs).runs es = some (os, p)`: the history `es`,
in which calls may panic, is possible and its calls end as `os` says.  `mreplay` is in
`Verif/MapDiff.lean`, `Op.spec` in `Verif/MutableBTreeMapSpec.lean`.
-/

namespace Verif.MutMapPanic

open MutMap
open MutVecPanic (Outcome)

variable {K V : Type} [LinearOrder K]

/-! ## Specification -/

/-- The calls that did not panic. -/
def completed : List (PEv K V) → List Outcome → List (Ev K V)
  | .call e :: es, .done :: os => e :: completed es os
  | _ :: es, _ :: os => completed es os
  | _, _ => []

/-- The contents of a `MutableBTreeMap` after these calls, as a partial function. -/
def contents : (K → Option V) → List (Ev K V) → (K → Option V)
  | m, [] => m
  | m, .op o :: es => contents (o.spec m).2 es
  | m, _ :: es => contents m es

/-- The diffs that subscriber `id` received: the `Ready(Some(diff))` answers to its polls, in order. -/
def got (id : Nat) : PWorld K V → List (PEv K V) → List (MapDiff K V)
  | _, [] => []
  | p, e :: es =>
    (match e with
      | .call (.poll i cx) =>
        if i = id ∧ p.w.hub.rxLive id = true then
          match (p.w.hub.pollRx id cx).1 with
          | .ready (some d) => [d]
          | _ => []
        else []
      | _ => []) ++
    match p.step e with
    | none => []
    | some (_, p') => got id p' es

/-- A panic happened in the middle of the method `o`: `clone` had been called before. -/
def InFlight (es : List (PEv K V)) (os : List Outcome) (o : Op K V) : Prop :=
  ∃ (i : Nat) (k : Nat), es[i]? = some (.clonePanics o (k + 1)) ∧ os[i]? = some .panicked

/-! ## Lemmas -/

theorem completed_snoc (es : List (PEv K V)) (os : List Outcome) (e : PEv K V) (o : Outcome)
    (h : os.length = es.length) :
    completed (es ++ [e]) (os ++ [o]) = completed es os ++ completed [e] [o] := by
  induction es generalizing os with
  | nil =>
    have : os = [] := List.eq_nil_of_length_eq_zero (by simpa using h)
    subst this; rfl
  | cons x es ih =>
    cases os with
    | nil => simp at h
    | cons y os =>
      have := ih os (by simpa using h)
      cases x <;> cases y <;> simp [completed, this]

theorem contents_append (m : K → Option V) (es es' : List (Ev K V)) :
    contents m (es ++ es') = contents (contents m es) es' := by
  induction es generalizing m with
  | nil => rfl
  | cons e es ih => cases e <;> simp only [List.cons_append, contents, ih]

/-- The lock stays poisoned; a panic poisons it; and a poisoned lock lets nobody else panic. -/
theorem step_poison {p p' : PWorld K V} {e : PEv K V} {o : Outcome} (h : p.step e = some (o, p')) :
    (p.poisoned = true → p'.poisoned = true) ∧ (o = .panicked → p'.poisoned = true) ∧
    (p.poisoned = true → o ≠ .panicked) := by
  cases e with
  | call e =>
    cases e <;> simp only [PWorld.step] at h
    case op op =>
      split at h
      · simp at h
      · split at h
        · cases h; simp
        · rename_i hp
          split at h <;> cases h <;> simp [hp]
    case subscribe =>
      split at h
      · simp at h
      · split at h <;> cases h <;> simp
    all_goals
      split at h <;> simp only [Option.some.injEq, Prod.mk.injEq, reduceCtorEq] at h <;>
        obtain ⟨rfl, rfl⟩ := h <;> simp
  | guardPanics =>
    simp only [PWorld.step] at h
    split at h
    · simp at h
    · split at h
      · cases h; simp
      · rename_i hp; cases h; simp [hp]
  | clonePanics op k =>
    simp only [PWorld.step] at h
    split at h
    · simp at h
    · split at h
      · cases h; simp
      · rename_i hp
        split at h
        · cases h; simp [hp]
        · simp at h
  | subscribePanics =>
    simp only [PWorld.step] at h
    split at h
    · simp at h
    · split at h
      · cases h; simp
      · rename_i hp
        split at h
        · simp at h
        · cases h; simp [hp]

/-- What a call leaves in the channels if `clone` panics: nothing, or a cut broadcast. -/
theorem clonePanics_spec {w w' : World K V} {o : Op K V} {k : Nat} (h : clonePanics w o k = some w') :
    (k = 0 ∧ w'.hub = w.hub) ∨ ∃ n d, k = n + 1 ∧ o.diffs w.values = [d] ∧
      w'.hub = w.hub.notifySome d n := by
  have cut : ∀ (d : MapDiff K V) (n : Nat) (vs : BMap K V),
      (match notifyClonePanics w.hub d n with
        | none => none
        | some hub => some (⟨vs, hub⟩ : World K V)) = some w' → w'.hub = w.hub.notifySome d n := by
    intro d n vs h
    simp only [notifyClonePanics] at h
    split at h
    · simp at h
    · rename_i hub hx
      split at hx
      · cases hx; cases h; rfl
      · simp at hx
  cases o with
  | remove key =>
    simp only [clonePanics, removePanics] at h
    have h1 := remove_fst w.values key
    cases hr : w.values.remove key with
    | mk a values =>
      rw [hr] at h h1
      cases a with
      | none => simp at h
      | some v =>
        cases k with
        | zero =>
          simp only at h
          split at h
          · simp at h
          · cases h; exact .inl ⟨rfl, rfl⟩
        | succ n =>
          exact .inr ⟨n, _, rfl, by simp only [Op.diffs, ← h1]; rfl, cut _ n values h⟩
  | replaceCloned values =>
    cases k with
    | zero =>
      simp only [clonePanics, replacePanics] at h
      split at h
      · simp at h
      · cases h; exact .inl ⟨rfl, rfl⟩
    | succ n => exact .inr ⟨n, _, rfl, rfl, cut _ n values h⟩
  | insertCloned key value =>
    cases k with
    | zero =>
      simp only [clonePanics, insertPanics] at h
      split at h
      · simp at h
      · cases h; exact .inl ⟨rfl, rfl⟩
    | succ n =>
      simp only [clonePanics, insertPanics] at h
      have h1 := insert_fst w.values key value
      cases hr : w.values.insert key value with
      | mk a values =>
        rw [hr] at h h1
        cases a with
        | none => exact .inr ⟨n, _, rfl, by simp only [Op.diffs, ← h1]; rfl, cut _ n values h⟩
        | some v => exact .inr ⟨n, _, rfl, by simp only [Op.diffs, ← h1]; rfl, cut _ n values h⟩
  | _ => simp [clonePanics] at h

/-- The events of the hub behind one event. -/
theorem step_hub {p p' : PWorld K V} {e : PEv K V} {o : Outcome} (hw : HubWF p.w.hub)
    (h : p.step e = some (o, p')) :
    ∃ hs, p'.w.hub = p.w.hub.psteps hs ∧
      (∀ k cx, .ev (.poll k cx) ∈ hs → e = .call (.poll k cx)) ∧
      (∀ k, .ev (.dropRx k) ∈ hs → e = .call (.dropRx k)) := by
  have stay : p'.w.hub = p.w.hub → ∃ hs, p'.w.hub = p.w.hub.psteps hs ∧
      (∀ k cx, .ev (.poll k cx) ∈ hs → e = .call (.poll k cx)) ∧
      (∀ k, .ev (.dropRx k) ∈ hs → e = .call (.dropRx k)) :=
    fun h => ⟨[], h, by simp, by simp⟩
  have one : ∀ e' : HubPEv (MapDiff K V), p'.w.hub = p.w.hub.pstep e' →
      (∀ k cx, e' = .ev (.poll k cx) → e = .call (.poll k cx)) →
      (∀ k, e' = .ev (.dropRx k) → e = .call (.dropRx k)) →
      ∃ hs, p'.w.hub = p.w.hub.psteps hs ∧
      (∀ k cx, .ev (.poll k cx) ∈ hs → e = .call (.poll k cx)) ∧
      (∀ k, .ev (.dropRx k) ∈ hs → e = .call (.dropRx k)) :=
    fun e' h h1 h2 => ⟨[e'], h, fun k cx hm => h1 k cx (List.mem_singleton.1 hm).symm,
      fun k hm => h2 k (List.mem_singleton.1 hm).symm⟩
  cases e with
  | call e =>
    cases e with
    | op op =>
      simp only [PWorld.step] at h
      split at h
      · simp at h
      · rename_i hh
        split at h
        · cases h; exact stay rfl
        · simp only [exec_eq] at h
          cases h
          exact ⟨_, (notify_psteps _ hw hh).1, by simp, by simp⟩
    | subscribe =>
      simp only [PWorld.step] at h
      split at h
      · simp at h
      · rename_i hh
        split at h
        · cases h; exact stay rfl
        · cases h
          refine one (.ev (.subscribe (if p.w.values.1.isEmpty then [] else [.replace p.w.values.1])))
            ?_ (by simp) (by simp)
          simp only [Hub.pstep, Hub.step, hh, if_false, World.signalMap]
    | poll id cx =>
      simp only [PWorld.step] at h
      split at h
      · rename_i hl
        cases h
        refine one (.ev (.poll id cx)) ?_ (by simp) (by simp)
        simp only [Hub.pstep, Hub.step, hl, if_true]
      · simp at h
    | dropRx id =>
      simp only [PWorld.step] at h
      split at h
      · rename_i hl
        cases h
        refine one (.ev (.dropRx id)) ?_ (by simp) (by simp)
        simp only [Hub.pstep, Hub.step, hl, if_true]
      · simp at h
    | cloneHandle =>
      simp only [PWorld.step] at h
      split at h
      · simp at h
      · rename_i hh
        cases h
        refine one (.ev .cloneHandle) ?_ (by simp) (by simp)
        simp only [Hub.pstep, Hub.step, hh, if_false]
    | dropHandle =>
      simp only [PWorld.step] at h
      split at h
      · simp at h
      · rename_i hh
        cases h
        refine one (.ev .dropHandle) ?_ (by simp) (by simp)
        simp only [Hub.pstep, Hub.step, hh, if_false]
  | guardPanics =>
    simp only [PWorld.step] at h
    split at h
    · simp at h
    · split at h <;> cases h <;> exact stay rfl
  | clonePanics op k =>
    simp only [PWorld.step] at h
    split at h
    · simp at h
    · rename_i hh
      split at h
      · cases h; exact stay rfl
      · split at h
        · rename_i w' hc
          cases h
          rcases clonePanics_spec hc with ⟨-, h3⟩ | ⟨n, d, -, -, h3⟩
          · exact stay h3
          · refine one (.cut d n) ?_ (by simp) (by simp)
            simp only [Hub.pstep, hh, if_false]
            exact h3
        · simp at h
  | subscribePanics =>
    simp only [PWorld.step] at h
    split at h
    · simp at h
    · split at h
      · cases h; exact stay rfl
      · split at h
        · simp at h
        · cases h; exact stay rfl

/-- What a live subscriber has been sent: everything, up to a method cut short. -/
def Shows (vs : BMap K V) (es : List (PEv K V)) (os : List Outcome) (l : List (MapDiff K V)) : Prop :=
  mreplay l noKeys = some (contents (mapOf vs.1) (completed es os)) ∨
  ∃ o, InFlight es os o ∧
    mreplay l noKeys = some (contents (mapOf vs.1) (completed es os ++ [.op o]))

/-- It can be replayed. -/
def CanReplay (l : List (MapDiff K V)) : Prop := ∃ m, mreplay l noKeys = some m

theorem inFlight_snoc {es : List (PEv K V)} {os : List Outcome} {o : Op K V} (h : InFlight es os o)
    (e : PEv K V) (x : Outcome) : InFlight (es ++ [e]) (os ++ [x]) o := by
  obtain ⟨i, k, h1, h2⟩ := h
  refine ⟨i, k, ?_, ?_⟩
  · rw [List.getElem?_append_left (List.getElem?_eq_some_iff.1 h1).1, h1]
  · rw [List.getElem?_append_left (List.getElem?_eq_some_iff.1 h2).1, h2]

theorem shows_prefix {vs : BMap K V} {es : List (PEv K V)} {os : List Outcome}
    {l m : List (MapDiff K V)} (h : Shows vs es os (l ++ m)) : CanReplay l := by
  rcases h with h | ⟨o, -, h⟩ <;> exact (mreplay_prefix h).imp fun _ h => h.1

theorem tracks_diffs (ds : List (MapDiff K V)) {x y : K → Option V} {h : Hub (MapDiff K V)}
    (hw : HubWF h) (hh : h.handles ≠ 0)
    (ht : Tracks (fun l => mreplay l noKeys = some x) CanReplay h) (hr : mreplay ds x = some y) :
    Tracks (fun l => mreplay l noKeys = some y) CanReplay (ds.foldl Hub.notify h) := by
  induction ds generalizing x h with
  | nil => cases hr; exact ht
  | cons d ds ih =>
    obtain ⟨x', hd, hr⟩ := mreplay_cons_some hr
    obtain ⟨g1, -, g2, -⟩ := hub_notify hw hh d
    refine ih g1 (by rw [g2]; exact hh) (tracks_notify hw hh ht ?_) hr
    intro l hl
    rw [mreplay_snoc hl]
    exact hd

theorem contents_other {m : K → Option V} {es : List (Ev K V)} {e : Ev K V} (h : ∀ o, e ≠ .op o) :
    contents m (es ++ [e]) = contents m es := by
  rw [contents_append]
  cases e with
  | op o => exact absurd rfl (h o)
  | _ => rfl

/-- The invariant of a history with panics. -/
structure PInv (vs : BMap K V) (es : List (PEv K V)) (os : List Outcome) (p : PWorld K V) : Prop where
  wf : HubWF p.w.hub
  len : os.length = es.length
  tracks : Tracks (Shows vs es os) CanReplay p.w.hub
  clean : p.poisoned = false →
    .panicked ∉ os ∧ mapOf p.w.values.1 = contents (mapOf vs.1) (completed es os)

theorem pinv_init (vs : BMap K V) : PInv vs [] [] (PWorld.init vs) :=
  ⟨(inv_init vs).wf, rfl,
    ⟨by simp [PWorld.init, World.init], by simp [PWorld.init, World.init]⟩,
    fun _ => ⟨by simp, rfl⟩⟩

theorem pinv_step {vs : BMap K V} {es : List (PEv K V)} {os : List Outcome} {p p' : PWorld K V}
    {e : PEv K V} {o : Outcome} (hi : PInv vs es os p) (h : p.step e = some (o, p')) :
    PInv vs (es ++ [e]) (os ++ [o]) p' := by
  have hwf' : HubWF p'.w.hub := by
    obtain ⟨l, h1, -⟩ := step_hub hi.wf h
    rw [h1]; exact hub_psteps hi.wf l
  have hlen' : (os ++ [o]).length = (es ++ [e]).length := by simp [hi.len]
  have hcs := completed_snoc es os e o hi.len
  have mono : completed [e] [o] = [] → ∀ l, Shows vs es os l → Shows vs (es ++ [e]) (os ++ [o]) l := by
    intro he l hl
    unfold Shows
    rw [hcs, he, List.append_nil]
    exact hl.imp id fun ⟨x, h1, h2⟩ => ⟨x, inFlight_snoc h1 e o, h2⟩
  have mono1 : ∀ e', completed [e] [o] = [e'] → (∀ op, e' ≠ .op op) →
      ∀ l, Shows vs es os l → Shows vs (es ++ [e]) (os ++ [o]) l := by
    intro e' he hn l hl
    unfold Shows
    rw [hcs, he, contents_other hn]
    refine hl.imp id fun ⟨x, h1, h2⟩ => ⟨x, inFlight_snoc h1 e o, ?_⟩
    rw [contents_append, contents_other hn, ← contents_append]
    exact h2
  have exact0 : p.poisoned = false →
      Tracks (fun l => mreplay l noKeys = some (mapOf p.w.values.1)) CanReplay p.w.hub := by
    intro hp
    obtain ⟨h1, h2⟩ := hi.clean hp
    refine tracks_mono hi.tracks fun l hl => ?_
    rcases hl with hl | ⟨x, ⟨i, k, -, h4⟩, -⟩
    · rw [h2]; exact hl
    · exact absurd (List.mem_of_getElem? h4) h1
  -- nothing changes in the channels, and nothing was completed
  have stay : p'.w.hub = p.w.hub → completed [e] [o] = [] →
      (p'.poisoned = false → p' = p ∧ o ≠ .panicked) → PInv vs (es ++ [e]) (os ++ [o]) p' := by
    intro hh he hp
    refine ⟨hwf', hlen', by rw [hh]; exact tracks_mono hi.tracks (mono he), fun hq => ?_⟩
    obtain ⟨rfl, hne⟩ := hp hq
    obtain ⟨h1, h2⟩ := hi.clean hq
    rw [hcs, he, List.append_nil]
    exact ⟨by simp [h1, hne.symm], h2⟩
  -- something that does not concern the contents
  have other : ∀ e', completed [e] [o] = [e'] → (∀ op, e' ≠ .op op) → o ≠ .panicked →
      (∀ R : List (MapDiff K V) → Prop, (∀ l m, R (l ++ m) → CanReplay l) →
        Tracks R CanReplay p.w.hub → Tracks R CanReplay p'.w.hub) →
      p'.poisoned = p.poisoned → p'.w.values = p.w.values → PInv vs (es ++ [e]) (os ++ [o]) p' := by
    intro e' he hn hne ht hp hv
    refine ⟨hwf', hlen', ht _ (fun l m h => shows_prefix h) (tracks_mono hi.tracks (mono1 e' he hn)),
      fun hq => ?_⟩
    obtain ⟨h1, h2⟩ := hi.clean (hp ▸ hq)
    rw [hcs, he, contents_other hn, hv]
    exact ⟨by simp [h1, hne.symm], h2⟩
  cases e with
  | call e =>
    cases e with
    | op op =>
      simp only [PWorld.step] at h
      split at h
      · simp at h
      · rename_i hh
        split at h
        · cases h; exact stay rfl rfl (by simp)
        · rename_i hp
          have hp : p.poisoned = false := by simpa using hp
          simp only [exec_eq] at h
          cases h
          have hv : mapOf (op.next p.w.values).1 =
              contents (mapOf vs.1) (completed (es ++ [.call (.op op)]) (os ++ [.done])) := by
            rw [hcs, next_spec, (hi.clean hp).2, contents_append]; rfl
          refine ⟨hwf', hlen', ?_, fun _ => ⟨by simp [(hi.clean hp).1], hv⟩⟩
          exact tracks_mono (tracks_diffs _ hi.wf hh (exact0 hp) (diffs_replay op p.w.values))
            fun l hl => .inl (by rw [← hv]; exact hl)
    | subscribe =>
      simp only [PWorld.step] at h
      split at h
      · simp at h
      · rename_i hh
        split at h
        · cases h; exact stay rfl rfl (by simp)
        · rename_i hp
          have hp : p.poisoned = false := by simpa using hp
          cases h
          have hv : mapOf p.w.values.1 =
              contents (mapOf vs.1) (completed (es ++ [.call .subscribe]) (os ++ [.done])) := by
            rw [hcs, (hi.clean hp).2]
            exact (contents_other (e := .subscribe) (by simp)).symm
          refine ⟨hwf', hlen', ?_, fun _ => ⟨by simp [(hi.clean hp).1], hv⟩⟩
          refine tracks_subscribe (tracks_mono hi.tracks (mono1 .subscribe rfl (by simp))) ?_ ⟨_, rfl⟩
          refine .inl ?_
          rw [← hv]
          split
          · rename_i he
            rw [List.isEmpty_iff] at he
            rw [he]; rfl
          · simp [mreplay_singleton, MapDiff.apply, p.w.values.2.nodup]
    | poll id cx =>
      simp only [PWorld.step] at h
      split at h
      · rename_i hl
        cases h
        exact other (.poll id cx) rfl (by simp) (by simp)
          (fun R hR ht => tracks_poll ht id cx hl hR) rfl rfl
      · simp at h
    | dropRx id =>
      simp only [PWorld.step] at h
      split at h
      · rename_i hl
        cases h
        exact other (.dropRx id) rfl (by simp) (by simp) (fun R hR ht => tracks_dropRx ht id) rfl rfl
      · simp at h
    | cloneHandle =>
      simp only [PWorld.step] at h
      split at h
      · simp at h
      · cases h
        exact other .cloneHandle rfl (by simp) (by simp) (fun R _ ht => ⟨ht.mirror, ht.sound⟩) rfl rfl
    | dropHandle =>
      simp only [PWorld.step] at h
      split at h
      · simp at h
      · cases h
        exact other .dropHandle rfl (by simp) (by simp) (fun R hR ht => tracks_dropHandle ht) rfl rfl
  | guardPanics =>
    simp only [PWorld.step] at h
    split at h
    · simp at h
    · split at h <;> cases h <;> exact stay rfl rfl (by simp)
  | clonePanics op k =>
    simp only [PWorld.step] at h
    split at h
    · simp at h
    · rename_i hh
      split at h
      · cases h; exact stay rfl rfl (by simp)
      · rename_i hp
        have hp : p.poisoned = false := by simpa using hp
        split at h
        · rename_i w' hc
          cases h
          rcases clonePanics_spec hc with ⟨-, h3⟩ | ⟨n, d, rfl, h2, h3⟩
          · exact stay h3 rfl (by simp)
          · have hv := (hi.clean hp).2
            refine ⟨hwf', hlen', ?_, by simp⟩
            show Tracks _ _ w'.hub
            rw [h3]
            have hce : completed (es ++ [.clonePanics op (n + 1)]) (os ++ [.panicked]) =
                completed es os := by rw [hcs]; simp [completed]
            refine tracks_notifySome hi.wf hh (exact0 hp) (fun l hl => .inl ?_)
              (fun l hl => .inr ⟨op, ⟨es.length, n, by simp, by rw [← hi.len]; simp⟩, ?_⟩)
            · rw [hce, ← hv]; exact hl
            · have h1 := diffs_replay op p.w.values
              rw [h2] at h1
              rw [mreplay_append_some hl, h1, hce, contents_append, ← hv, next_spec]
              rfl
        · simp at h
  | subscribePanics =>
    simp only [PWorld.step] at h
    split at h
    · simp at h
    · split at h
      · cases h; exact stay rfl rfl (by simp)
      · split at h
        · simp at h
        · cases h; exact stay rfl rfl (by simp)

theorem pinv_runs {vs : BMap K V} {es : List (PEv K V)} {os : List Outcome} {p : PWorld K V}
    (h : (PWorld.init vs).runs es = some (os, p)) : PInv vs es os p :=
  runE_inv (Inv := PInv vs) (pinv_init vs) (fun _ _ _ _ _ _ hi hs => pinv_step hi hs) h

/-- The answers to the polls are the delivery log. -/
theorem got_log {p p' : PWorld K V} (hw : HubWF p.w.hub) {es : List (PEv K V)} {os : List Outcome}
    (h : p.runs es = some (os, p')) (k : Nat) :
    p'.w.hub.log k = p.w.hub.log k ++ got k p es := by
  induction es generalizing p os with
  | nil => cases h; simp [got]
  | cons e es ih =>
    simp only [PWorld.runs, runE] at h
    cases hs : p.step e with
    | none => simp [hs] at h
    | some q =>
      obtain ⟨o, p1⟩ := q
      simp only [hs] at h
      cases hr : runE PWorld.step p1 es with
      | none => simp [hr] at h
      | some q2 =>
        obtain ⟨os2, p2⟩ := q2
        simp only [hr, Option.some.injEq, Prod.mk.injEq] at h
        obtain ⟨rfl, rfl⟩ := h
        obtain ⟨l, h1, h2, -⟩ := step_hub hw hs
        have hw1 : HubWF p1.w.hub := by rw [h1]; exact hub_psteps hw l
        rw [ih hw1 hr]
        simp only [got, hs]
        rw [← List.append_assoc]
        congr 1
        by_cases he : ∃ cx, e = .call (.poll k cx)
        · obtain ⟨cx, rfl⟩ := he
          simp only [PWorld.step] at hs
          split at hs
          · rename_i hl
            cases hs
            simp only [hl, and_self, if_true]
            have := hub_step_log hw (.poll k cx) k
            simp only [Hub.step, Hub.delivers, hl, and_self, if_true] at this
            rw [this]
            congr 1
            obtain (_ | d) | _ := (p.w.hub.pollRx k cx).1 <;> rfl
          · simp at hs
        · have : p1.w.hub.log k = p.w.hub.log k := by
            rw [h1]
            exact hub_psteps_log hw l k fun cx hm => he ⟨cx, h2 k cx hm⟩
          rw [this]
          cases e with
          | call e =>
            cases e with
            | poll i cx =>
              have : i ≠ k := fun hk => he ⟨cx, by rw [hk]⟩
              simp [this]
            | _ => simp
          | _ => simp

theorem delivered_got {vs : BMap K V} {es : List (PEv K V)} {os : List Outcome} {p : PWorld K V}
    (h : (PWorld.init vs).runs es = some (os, p)) {id : Nat} {c : Link (MapDiff K V)}
    (hi : p.w.hub.links[id]? = some c) : c.delivered = got id (PWorld.init vs) es := by
  have := got_log (inv_init vs).wf h id
  simp only [Hub.log, hi, Option.map_some, PWorld.init, World.init, List.getElem?_nil,
    Option.map_none, List.nil_append] at this
  exact this

/-! ## Theorems -/

/-- **C79.**  Whatever panicked (`clone` at any point of any method, the comparison of keys, code that
holds the guard): the diffs a subscriber received
replay without panic; with those still queued for it, if it is live, they rebuild the contents that
the completed calls make, or those with the one method added that a panic cut short. -/
theorem C79_map_mirror (vs : BMap K V) (es : List (PEv K V)) (os : List Outcome) (p : PWorld K V)
    (h : (PWorld.init vs).runs es = some (os, p)) (id : Nat) (c : Link (MapDiff K V))
    (hi : p.w.hub.links[id]? = some c) :
    (∃ m, mreplay (got id (PWorld.init vs) es) noKeys = some m) ∧
    (c.rxAlive = true →
      mreplay (got id (PWorld.init vs) es ++ c.queue) noKeys = some (contents (mapOf vs.1) (completed es os)) ∨
      ∃ o, InFlight es os o ∧ mreplay (got id (PWorld.init vs) es ++ c.queue) noKeys =
        some (contents (mapOf vs.1) (completed es os ++ [.op o]))) := by
  have hp := pinv_runs h
  rw [← delivered_got h hi]
  exact ⟨hp.tracks.sound id _ hi, fun ha => hp.tracks.mirror id _ hi ha⟩

/-- **C79**, a partial change stays hidden: once something panicked with the lock held, every later
method and subscription panics. -/
theorem C79_map_poisoned (vs : BMap K V) (es : List (PEv K V)) (e : PEv K V) (os : List Outcome)
    (o : Outcome) (p : PWorld K V) (h : (PWorld.init vs).runs (es ++ [e]) = some (os ++ [o], p))
    (hb : .panicked ∈ os)
    (he : (∃ op, e = .call (.op op)) ∨ e = .call .subscribe) : o = .poisoned := by
  obtain ⟨os1, o1, p1, h1, h2, h3⟩ := runE_snoc h
  obtain ⟨rfl, h4⟩ := List.append_inj' h3 rfl
  obtain ⟨rfl⟩ := h4
  have hp : p1.poisoned = true := by
    cases hq : p1.poisoned with
    | true => rfl
    | false => exact absurd hb ((pinv_runs h1).clean hq).1
  rcases he with ⟨op, rfl⟩ | rfl <;> simp only [PWorld.step, hp, if_true] at h2 <;> split at h2 <;>
    simp only [Option.some.injEq, Prod.mk.injEq, reduceCtorEq] at h2 <;> exact h2.1.symm

/-- **C79**, at most one call is cut short: in every history at most one call panics, apart from those
that find the lock poisoned. -/
theorem C79_map_once (vs : BMap K V) (es : List (PEv K V)) (os : List Outcome) (p : PWorld K V)
    (h : (PWorld.init vs).runs es = some (os, p)) (i j : Nat) (hi : os[i]? = some .panicked)
    (hj : os[j]? = some .panicked) : i = j := by
  have key := runE_inv (Inv := fun (_ : List (PEv K V)) (os : List Outcome) (p : PWorld K V) =>
    (.panicked ∈ os → p.poisoned = true) ∧
    ∀ i j : Nat, os[i]? = some .panicked → os[j]? = some .panicked → i = j) (m := PWorld.init vs)
    ⟨by simp, by simp⟩ ?_ h
  · exact key.2 i j hi hj
  · intro es os s e o s' ⟨h1, h2⟩ hs
    have hsp := step_poison hs
    have hfresh := hsp.2.2
    refine ⟨fun hm => ?_, fun i j hi hj => ?_⟩
    · rcases List.mem_append.1 hm with hm | hm
      · exact hsp.1 (h1 hm)
      · exact hsp.2.1 (List.mem_singleton.1 hm).symm
    · have pos : ∀ i : Nat, (os ++ [o])[i]? = some .panicked →
          os[i]? = some .panicked ∨ (i = os.length ∧ o = .panicked) := by
        intro i hi
        rcases Nat.lt_or_ge i os.length with hl | hl
        · rw [List.getElem?_append_left hl] at hi; exact .inl hi
        · rw [List.getElem?_append_right hl] at hi
          cases hk : i - os.length with
          | zero => rw [hk] at hi; exact .inr ⟨by omega, by simpa using hi⟩
          | succ n => simp [hk] at hi
      rcases pos i hi with hi | ⟨rfl, rfl⟩ <;> rcases pos j hj with hj | ⟨rfl, ho⟩
      · exact h2 i j hi hj
      · exact absurd ho (hfresh (h1 (List.mem_of_getElem? hi)))
      · exact absurd rfl (hfresh (h1 (List.mem_of_getElem? hj)))
      · rfl

/-- **C79**, the end is still reported: whatever panicked, a live subscriber's poll answers the end iff
all handles are gone and nothing is queued for it, and `Pending` iff a handle lives and nothing is
queued. -/
theorem C79_map_poll (vs : BMap K V) (es : List (PEv K V)) (os : List Outcome) (p : PWorld K V)
    (h : (PWorld.init vs).runs es = some (os, p)) (id : Nat) (c : Link (MapDiff K V))
    (hi : p.w.hub.links[id]? = some c) (hl : c.rxAlive = true) (cx : Waker) :
    ((p.w.hub.pollRx id cx).1 = .ready none ↔ p.w.hub.handles = 0 ∧ c.queue = []) ∧
    ((p.w.hub.pollRx id cx).1 = .pending ↔ p.w.hub.handles ≠ 0 ∧ c.queue = []) := by
  have hw := (pinv_runs h).wf
  have htx := hw.tx id c hi hl
  have htx : c.txAlive = true ↔ p.w.hub.handles ≠ 0 := htx
  simp only [Hub.pollRx, hi]
  cases hq : c.queue with
  | cons d ds => simp
  | nil =>
    simp only
    by_cases hh : p.w.hub.handles = 0
    · have : c.txAlive = false := by
        cases ht : c.txAlive with
        | false => rfl
        | true => exact absurd hh (htx.1 ht)
      simp [this, hh]
    · simp [htx.2 hh, hh]

/-- **C79**, no wake-up is lost: whatever panicked, if a subscriber's poll with waker `x` answered
`Pending` and it was neither polled nor dropped since, then `x` was woken since, or a new poll would
still answer `Pending`. -/
theorem C79_map_wake (vs : BMap K V) (es es' : List (PEv K V)) (os os' : List Outcome) (p p' : PWorld K V)
    (h : (PWorld.init vs).runs es = some (os, p)) (k : Nat) (x cx : Waker)
    (hpend : (p.w.hub.pollRx k x).1 = .pending)
    (h' : p.runs (.call (.poll k x) :: es') = some (os', p'))
    (hp : ∀ cx, .call (.poll k cx) ∉ es') (hd : .call (.dropRx k) ∉ es') :
    ∃ new, p'.w.hub.woken = p.w.hub.woken ++ new ∧ (x ∈ new ∨ (p'.w.hub.pollRx k cx).1 = .pending) := by
  have hw := (pinv_runs h).wf
  simp only [PWorld.runs, runE] at h'
  cases hs : p.step (.call (.poll k x)) with
  | none => simp [hs] at h'
  | some q =>
    obtain ⟨o, p1⟩ := q
    simp only [hs] at h'
    cases hr : runE PWorld.step p1 es' with
    | none => simp [hr] at h'
    | some q2 =>
      obtain ⟨os2, p2⟩ := q2
      simp only [hr, Option.some.injEq, Prod.mk.injEq] at h'
      obtain ⟨-, rfl⟩ := h'
      have hw1 : HubWF p1.w.hub := by
        obtain ⟨l, h1, -⟩ := step_hub hw hs
        rw [h1]; exact hub_psteps hw l
      -- after the poll the waker is registered
      have hreg : p1.w.hub.woken = p.w.hub.woken ∧
          ∃ c : Link (MapDiff K V), p1.w.hub.links[k]? = some c ∧ c.waker = some x := by
        simp only [PWorld.step] at hs
        split at hs
        · rename_i hl
          cases hs
          unfold Hub.rxLive at hl
          unfold Hub.pollRx at hpend ⊢
          cases hc : p.w.hub.links[k]? with
          | none => simp [hc] at hl
          | some c =>
            have hk := (List.getElem?_eq_some_iff.1 hc).1
            simp only [hc] at hpend ⊢
            cases hq : c.queue with
            | cons d ds => simp [hq] at hpend
            | nil =>
              simp only [hq] at hpend ⊢
              split
              · refine ⟨rfl, { c with waker := some x }, ?_, rfl⟩
                simp [hk, hq]
              · rename_i ht; simp [ht] at hpend
        · simp at hs
      obtain ⟨e1, c, hc, hx⟩ := hreg
      -- and stays until it is woken
      have key := runE_inv (Inv := fun (es : List (PEv K V)) (_ : List Outcome) (q : PWorld K V) =>
        (∀ cx, .call (.poll k cx) ∉ es) → .call (.dropRx k) ∉ es → HubWF q.w.hub ∧
        ∃ new, q.w.hub.woken = p.w.hub.woken ++ new ∧ (x ∈ new ∨
          ∃ c' : Link (MapDiff K V), q.w.hub.links[k]? = some c' ∧ c'.waker = some x))
        (m := p1) (fun _ _ => ⟨hw1, [], by simp [e1], .inr ⟨c, hc, hx⟩⟩) ?_ hr hp hd
      · obtain ⟨hw2, new, g1, g2⟩ := key
        refine ⟨new, g1, g2.imp id fun ⟨c', hc', hx'⟩ => ?_⟩
        obtain ⟨a1, a2, a3⟩ := hw2.waiting k c' x hc' hx'
        have : (p2.w.hub.pollRx k cx).1 = .pending := by simp [Hub.pollRx, hc', a1, a2]
        exact this
      · intro es os s e o s' hinv hst hp hd
        obtain ⟨b1, new, b2, b3⟩ := hinv (fun cx hm => hp cx (by simp [hm])) (fun hm => hd (by simp [hm]))
        obtain ⟨l, l1, l2, l3⟩ := step_hub b1 hst
        refine ⟨by rw [l1]; exact hub_psteps b1 l, ?_⟩
        obtain ⟨n2, m1, m2⟩ := hub_psteps_wake b1 l
        rw [← l1] at m1
        have m1 : s'.w.hub.woken = s.w.hub.woken ++ n2 := m1
        refine ⟨new ++ n2, by rw [m1, b2, List.append_assoc], ?_⟩
        rcases b3 with b3 | ⟨c', c1, c2⟩
        · exact .inl (List.mem_append_left _ b3)
        · rw [l1]
          rcases m2 k c' x c1 c2 (fun cx hm => hp cx (by simp [l2 k cx hm]))
            (fun hm => hd (by simp [l3 k hm])) with m3 | m3
          · exact .inl (List.mem_append_right _ m3)
          · exact .inr m3

/-- Two entries. -/
def demo0 : BMap Nat Nat := ⟨[(2, 20), (3, 30)], by unfold Ascending; decide⟩

/-- Three subscribers; `clone` panics in the middle of `insert_cloned`; the first subscriber has been
sent the insertion, the others not; later calls panic; the subscribers end when the handle is
dropped. -/
def demoTorn : List (PEv Nat Nat) :=
  [.call .subscribe, .call .subscribe, .call .subscribe, .call (.op (.remove 3)),
   .clonePanics (.insertCloned 1 5) 2, .call (.op (.remove 2)), .call (.poll 0 7), .call (.poll 0 7),
   .call (.poll 0 7), .call (.poll 1 8), .call (.poll 1 8), .call (.poll 1 8), .call .dropHandle]

/-- The hypotheses of the theorems above are met, and both alternatives of `C79_map_mirror` occur. -/
example : ∃ os p, (PWorld.init demo0).runs demoTorn = some (os, p) ∧
    os = [.done, .done, .done, .done, .panicked, .poisoned, .done, .done, .done, .done, .done, .done,
      .done] ∧
    got 0 (PWorld.init demo0) demoTorn = [.replace [(2, 20), (3, 30)], .remove 3, .insert 1 5] ∧
    got 1 (PWorld.init demo0) demoTorn = [.replace [(2, 20), (3, 30)], .remove 3] ∧
    p.w.hub.woken = [8] ∧
    p.w.hub.links.map (fun c => c.queue) = [[], [], [.replace [(2, 20), (3, 30)], .remove 3]] :=
  ⟨_, _, rfl, rfl, rfl, rfl, rfl, rfl⟩

/-- The method cut short is the one that panicked. -/
example (os : List Outcome) (h : os[4]? = some .panicked) : InFlight demoTorn os (.insertCloned 1 5) :=
  ⟨4, _, rfl, h⟩

/-- A panic of `clone` before the first send changes the contents and sends nothing; nobody can see
that, because the lock is poisoned. -/
example : ∃ os p, (PWorld.init demo0).runs [.call .subscribe, .clonePanics (.replaceCloned demo0) 0,
      .call .subscribe, .call (.poll 0 1), .call (.poll 0 1)] = some (os, p) ∧
    os = [.done, .panicked, .poisoned, .done, .done] ∧
    p.w.hub.links.map (fun c => c.delivered) = [[.replace [(2, 20), (3, 30)]]] := ⟨_, _, rfl, rfl, rfl⟩

/-- **C79**, for ever: once something panicked with the lock held, a method or subscription through a handle panics
instead of waiting for the lock, and changes nothing. -/
theorem C79_map_unusable (vs : BMap K V) (es : List (PEv K V)) (os : List Outcome) (p : PWorld K V)
    (h : (PWorld.init vs).runs es = some (os, p)) (hb : .panicked ∈ os) (hh : p.w.hub.handles ≠ 0) (e : PEv K V)
    (he : (∃ op, e = .call (.op op)) ∨ e = .call .subscribe) : p.step e = some (.poisoned, p) := by
  have hp : p.poisoned = true := by
    cases hq : p.poisoned with
    | true => rfl
    | false => exact absurd hb ((pinv_runs h).clean hq).1
  rcases he with ⟨op, rfl⟩ | rfl <;> simp [PWorld.step, hp, hh]

/-- A panic of `clone` before the insertion, and one in `signal_map_cloned`; without subscribers, or entries, `clone` is
not called. -/
example : ((PWorld.init demo0).runs [.call .subscribe, .clonePanics (.insertCloned 1 5) 0, .call (.op (.remove 2))]).map
      (fun q => (q.1, q.2.w.values.1, q.2.w.hub.handles, q.2.w.hub.links.map (·.queue))) =
    some ([.done, .panicked, .poisoned], [(2, 20), (3, 30)], 1, [[.replace [(2, 20), (3, 30)]]]) := rfl

example : ((PWorld.init demo0).runs [.subscribePanics, .call .subscribe]).map
      (fun q => (q.1, q.2.w.hub.links.length)) = some ([.panicked, .poisoned], 0) := rfl

example : (PWorld.init demo0).step (.clonePanics (.insertCloned 1 5) 0) = none ∧
    (PWorld.init demo0).step (.clonePanics (.replaceCloned demo0) 0) = none ∧
    (PWorld.init (⟨[], by unfold Ascending; decide⟩ : BMap Nat Nat)).step .subscribePanics = none := ⟨rfl, rfl, rfl⟩

end Verif.MutMapPanic
