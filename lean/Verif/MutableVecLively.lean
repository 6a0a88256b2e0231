import Verif.PipeMut
import Verif.ChainStage

/-!
# `MutableVec` sends no change without effect

A subscriber of a `MutableVec` gets a `Replace` by nothing or a `Clear` of something empty only if the
program replaces the contents by nothing while they are empty.
-/

namespace Verif

theorem lively_prefix {α : Type} {ds es : List (VecDiff α)} {zs : List α} (h : Lively (ds ++ es) zs) :
    Lively ds zs :=
  fun a d b ys he hr => h a d (b ++ es) ys (by simp [he]) hr

end Verif

namespace Verif.MutVec

variable {α : Type}

/-- The contents, which are empty, are replaced by nothing. -/
def Op.Pointless : Op α → List α → Prop
  | .replace vs, l => vs = [] ∧ l = []
  | .replaceCloned vs, l => vs = [] ∧ l = []
  | .applyVecDiff (.replace vs), l => vs = [] ∧ l = []
  | _, _ => False

theorem removalDiffs_local (is : List Nat) (n : Nat) :
    ∀ d ∈ removalDiffs (α := α) is n, d.isLocal = true := by
  induction is generalizing n with
  | nil => simp [removalDiffs]
  | cons i is ih =>
    simp only [removalDiffs, List.forall_mem_cons]
    exact ⟨by split <;> rfl, ih _⟩

theorem rangeDiffs_lively (start stop : Nat) (l : List α) : Lively (rangeDiffs start stop l.length) l := by
  unfold rangeDiffs
  split
  · split
    · refine lively_single ?_
      rintro ⟨-, rfl⟩
      simp only [List.length_nil] at *
      omega
    · exact lively_local (removalDiffs_local _ _) _
  · exact lively_nil _

theorem replace_lively {vs l : List α} (h : ¬ (vs = [] ∧ l = [])) : Lively [VecDiff.replace vs] l := by
  refine lively_single ?_
  rintro ⟨h1 | h1, rfl⟩
  · cases h1; exact h ⟨rfl, rfl⟩
  · cases h1

theorem clear_lively {l : List α} : Lively (if l.length = 0 then [] else [VecDiff.clear]) l := by
  split
  · exact lively_nil _
  · refine lively_single ?_
    rintro ⟨-, rfl⟩
    simp at *

theorem diffs_lively {o : Op α} {l : List α} (h : ¬ o.Pointless l) : Lively (o.diffs l) l := by
  cases o with
  | clear => exact clear_lively
  | retain f =>
    simp only [Op.diffs]
    split
    · exact lively_nil _
    · split
      · refine lively_single ?_
        rintro ⟨-, rfl⟩
        simp at *
      · exact lively_local (removalDiffs_local _ _) _
  | drain lo hi => exact rangeDiffs_lively _ _ _
  | truncate n => exact rangeDiffs_lively _ _ _
  | replace vs => exact replace_lively h
  | replaceCloned vs => exact replace_lively h
  | applyVecDiff d =>
    cases d with
    | replace vs => exact replace_lively h
    | clear => exact clear_lively
    | _ =>
      refine lively_local ?_ _
      simp only [Op.diffs]
      repeat' split
      all_goals simp [VecDiff.isLocal]
  | extend vs =>
    refine lively_local ?_ _
    intro d hd
    obtain ⟨v, -, rfl⟩ := List.mem_map.1 hd
    rfl
  | reverse =>
    refine lively_local ?_ _
    intro d hd
    obtain ⟨v, -, rfl⟩ := List.mem_map.1 hd
    rfl
  | _ =>
    refine lively_local ?_ _
    simp only [Op.diffs]
    repeat' split
    all_goals simp [VecDiff.isLocal]

/-- All diffs a subscriber got or will get. -/
def Chan.stream (c : Chan α) : List (VecDiff α) := c.delivered ++ c.queue

def AllLively (w : World α) : Prop := ∀ (i : Nat) (c : Chan α), w.chans[i]? = some c → Lively c.stream []

theorem lively_step {w w' : World α} (hw : Inv w) (hl : AllLively w) {e : Ev α}
    (h : w.step e = some w') (he : ∀ o, e = .op o → ¬ o.Pointless w.values) : AllLively w' := by
  intro k c' hc'
  -- the stream only lost its end
  have shrink : ∀ f : Chan α → Chan α, (∀ c, ∃ r, c.stream = (f c).stream ++ r) →
      w'.chans[k]? = w.chans[k]?.map f → Lively c'.stream [] := by
    intro f hf heq
    rw [heq] at hc'
    cases hc : w.chans[k]? with
    | none => simp [hc] at hc'
    | some c =>
      simp only [hc, Option.map_some, Option.some.injEq] at hc'
      subst hc'
      obtain ⟨r, hr⟩ := hf c
      exact lively_prefix (hr ▸ hl k c hc)
  have same : w' = w → Lively c'.stream [] := fun h => hl k c' (h ▸ hc')
  cases e with
  | op o =>
    simp only [World.step] at h
    by_cases hh : w.handles = 0
    · simp only [hh, ↓reduceIte, Option.some.injEq] at h; exact same h.symm
    · simp only [hh, ↓reduceIte, exec_eq] at h
      cases hsp : o.spec w.values with
      | none => simp [hsp] at h
      | some sp =>
        simp [hsp] at h; subst h
        obtain ⟨-, h2, -, -⟩ := wf_notifyAll hw.toWF hh (o.diffs w.values)
        simp only at hc'
        rw [h2] at hc'
        cases hc : w.chans[k]? with
        | none => simp [hc] at hc'
        | some c =>
          simp only [hc, Option.map_some, Option.some.injEq] at hc'
          subst hc'
          by_cases ha : c.rxAlive = true
          · rw [Chan.stream, pushAll_delivered, pushAll_queue _ _ ha, ← List.append_assoc]
            exact lively_append (hl k c hc) (hw.mirror k c hc ha) (diffs_lively (he o rfl))
          · have : pushAll (o.diffs w.values) c = c := by simp [pushAll, ha]
            rw [this]
            exact hl k c hc
  | subscribe =>
    simp only [World.step] at h
    by_cases hh : w.handles = 0
    · simp only [hh, ↓reduceIte, Option.some.injEq] at h; exact same h.symm
    · simp only [hh, ↓reduceIte, Option.some.injEq] at h; subst h
      simp only [World.signalVec] at hc'
      rw [List.getElem?_append] at hc'
      split at hc'
      · exact hl k c' hc'
      · have := List.mem_of_getElem? hc'
        simp only [List.mem_singleton] at this
        subst this
        show Lively ([] ++ _) []
        rw [List.nil_append]
        split
        · rename_i hv
          refine lively_single ?_
          rintro ⟨h1 | h1, -⟩
          · injection h1 with h1
            rw [h1] at hv
            exact Nat.lt_irrefl _ hv
          · cases h1
        · exact lively_nil _
  | poll id cx =>
    simp only [World.step] at h
    by_cases hl' : w.rxLive id = true
    · simp only [hl', ↓reduceIte, Option.some.injEq] at h; subst h
      unfold World.pollRx at hc'
      split at hc'
      · exact hl k c' hc'
      · rename_i c hc
        split at hc'
        · rename_i d ds hq
          rcases getElem?_set_some hc' with ⟨rfl, rfl, -⟩ | ⟨-, h⟩
          · have := hl id c hc
            rw [Chan.stream, hq] at this
            rw [Chan.stream]
            simpa using this
          · exact hl k c' h
        · split at hc'
          · rcases getElem?_set_some hc' with ⟨rfl, rfl, -⟩ | ⟨-, h⟩
            · exact hl id c hc
            · exact hl k c' h
          · exact hl k c' hc'
    · simp only [hl'] at h
      cases h
      exact same rfl
  | dropRx id =>
    simp only [World.step] at h
    by_cases hl' : w.rxLive id = true
    · simp only [hl', ↓reduceIte, Option.some.injEq] at h; subst h
      refine shrink _ ?_ (dropRx_spec w id k).1
      intro c
      split
      · exact ⟨c.queue, by simp [Chan.stream]⟩
      · exact ⟨[], by simp⟩
    · simp only [hl'] at h
      cases h
      exact same rfl
  | cloneHandle =>
    simp only [World.step] at h
    by_cases hh : w.handles = 0
    · simp only [hh, ↓reduceIte, Option.some.injEq] at h; exact same h.symm
    · simp only [hh, ↓reduceIte, Option.some.injEq] at h; subst h
      exact hl k c' hc'
  | dropHandle =>
    simp only [World.step] at h
    by_cases hh : w.handles = 0
    · simp only [hh, ↓reduceIte, Option.some.injEq] at h; exact same h.symm
    · simp only [hh, ↓reduceIte, Option.some.injEq] at h; subst h
      refine shrink _ ?_ ((dropHandle_spec hh).2.2.2.1 k)
      intro c
      split
      · exact ⟨[], by simp [Chan.stream, closed]⟩
      · exact ⟨[], by simp⟩

theorem lively_runs {w w' : World α} (hw : Inv w) (hl : AllLively w) {h : List (Ev α)}
    (hr : w.runs h = some w')
    (hn : ∀ h1 o h2 w1, h = h1 ++ .op o :: h2 → w.runs h1 = some w1 → ¬ o.Pointless w1.values) :
    AllLively w' := by
  induction h generalizing w with
  | nil => cases hr; exact hl
  | cons e es ih =>
    simp only [World.runs] at hr
    cases hs : w.step e with
    | none => simp [hs] at hr
    | some w1 =>
      simp only [hs] at hr
      refine ih (inv_step hw hs) (lively_step hw hl hs ?_) hr ?_
      · rintro o rfl
        exact hn [] o es w rfl rfl
      · intro h1 o h2 w2 he h2'
        exact hn (e :: h1) o h2 w2 (by simp [he]) (by simp only [World.runs, hs]; exact h2')

/-- A subscriber of a `MutableVec` gets a `Replace` by nothing or a `Clear` while its copy is empty only
if the program replaced the contents by nothing while they were empty. -/
theorem received_lively (vs : List α) (h : List (Ev α)) (w : World α)
    (hr : (World.init vs).runs h = some w)
    (hn : ∀ h1 o h2 w1, h = h1 ++ .op o :: h2 → (World.init vs).runs h1 = some w1 →
      ¬ o.Pointless w1.values) (k : Nat) :
    Feed (fun d xs => ¬ Vacuous d xs) (received k (World.init vs) h) [] := by
  have hi := inv_runs (inv_init vs) hr
  have hall := lively_runs (inv_init vs) (by simp [AllLively, World.init]) hr hn
  have hlog := runs_log (inv_init vs) hr k
  have h0 : (World.init vs).log k = [] := by simp [World.log, World.init]
  rw [h0, List.nil_append] at hlog
  rw [← hlog]
  unfold World.log
  split
  · rename_i c hc
    exact feed_iff.2 ⟨hi.sound k c hc, fun a d b ys e hr hv =>
      lively_prefix (hall k c hc) a d b ys e hr hv⟩
  · trivial

end Verif.MutVec
