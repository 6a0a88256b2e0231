import Verif.Props.WholeSwitch
import Verif.Props.PlainPipe

/-!
# C103: how often a `MutableVec` and a `MutableBTreeMap` send their whole contents
-/

namespace Verif

variable {α β K V : Type}

namespace MutVec

/-- The calls that give the list as a whole. -/
def Ev.givesAll : Ev α → Bool
  | .op (.replace _) => true
  | .op (.replaceCloned _) => true
  | .op (.applyVecDiff (.replace _)) => true
  | _ => false

/-- The calls that may leave nothing. -/
def Ev.mayClear : Ev α → Bool
  | .op .clear => true
  | .op (.retain _) => true
  | .op (.drain _ _) => true
  | .op (.truncate _) => true
  | .op (.applyVecDiff .clear) => true
  | _ => false

theorem leaving_whole (n : Nat) (keep : Nat → Bool) :
    replaces (leaving n keep : List (VecDiff α)) = 0 ∧ clearsIn (leaving n keep : List (VecDiff α)) ≤ 1 := by
  unfold leaving
  split
  · exact ⟨rfl, Nat.zero_le _⟩
  · split
    · exact ⟨rfl, Nat.le_refl _⟩
    · constructor
      · unfold replaces
        rw [List.countP_eq_zero]
        intro d hd
        obtain ⟨i, -, rfl⟩ := List.mem_map.1 hd
        split <;> simp [VecDiff.isReplace]
      · refine Nat.le_trans (Nat.le_of_eq ?_) (Nat.zero_le 1)
        unfold clearsIn
        rw [List.countP_eq_zero]
        intro d hd
        obtain ⟨i, -, rfl⟩ := List.mem_map.1 hd
        split <;> simp [VecDiff.isClear]

theorem tells_whole (o : Op α) (l : List α) :
    replaces (o.tells l) ≤ (if (Ev.op o).givesAll then 1 else 0) ∧
      clearsIn (o.tells l) ≤ if (Ev.op o).mayClear then 1 else 0 := by
  cases o with
  | retain f =>
    have h := leaving_whole (α := α) l.length fun i => l[i]?.any f
    exact ⟨Nat.le_of_eq h.1, h.2⟩
  | drain lo hi =>
    have h := leaving_whole (α := α) l.length fun i => decide (i < lo.lower ∨ hi.upper l.length ≤ i)
    exact ⟨Nat.le_of_eq h.1, h.2⟩
  | truncate n =>
    have h := leaving_whole (α := α) l.length fun i => decide (i < n)
    exact ⟨Nat.le_of_eq h.1, h.2⟩
  | applyVecDiff d =>
    cases d <;> simp only [Op.tells, Ev.givesAll, Ev.mayClear] <;> (try split) <;>
      simp_all [replaces, clearsIn, VecDiff.isReplace, VecDiff.isClear]
  | _ =>
    simp only [Op.tells, Ev.givesAll, Ev.mayClear] <;> (repeat' split) <;>
      simp_all [replaces, clearsIn, VecDiff.isReplace, VecDiff.isClear, List.countP_map, List.countP_eq_zero]

theorem greeting_whole (l : List α) : replaces (greeting l) ≤ 1 ∧ clearsIn (greeting l) = 0 := by
  unfold greeting
  split <;> simp [replaces, clearsIn, VecDiff.isReplace, VecDiff.isClear]

theorem sentTo_whole (k n : Nat) (w : World α) (h : List (Ev α)) :
    replaces (sentTo k n w h) ≤ min 1 (k + 1 - n) + h.countP Ev.givesAll ∧
      clearsIn (sentTo k n w h) ≤ h.countP Ev.mayClear := by
  induction h generalizing n w with
  | nil => simp [sentTo, replaces, clearsIn]
  | cons e h ih =>
    rw [List.countP_cons, List.countP_cons]
    have n1 : replaces ([] : List (VecDiff α)) = 0 := rfl
    have n2 : clearsIn ([] : List (VecDiff α)) = 0 := rfl
    -- what is sent now, and what is left
    have key : ∀ (now : List (VecDiff α)) m a b, replaces now + min 1 (k + 1 - m) ≤ min 1 (k + 1 - n) + a →
        clearsIn now ≤ b → sentTo k n w (e :: h) = (match w.step e with
          | none => now
          | some w' => now ++ sentTo k m w' h) →
        replaces (sentTo k n w (e :: h)) ≤ min 1 (k + 1 - n) + (h.countP Ev.givesAll + a) ∧
          clearsIn (sentTo k n w (e :: h)) ≤ h.countP Ev.mayClear + b := by
      intro now m a b h1 h2 h3
      rw [h3]
      cases w.step e with
      | none => simp only; omega
      | some w' =>
        simp only [replaces_append, clearsIn_append]
        obtain ⟨i1, i2⟩ := ih m w'
        omega
    cases e with
    | op o =>
      obtain ⟨t1, t2⟩ := tells_whole o w.values
      refine key (if k < n ∧ w.handles ≠ 0 then o.tells w.values else []) n _ _ ?_ ?_ rfl
      · split <;> omega
      · split <;> omega
    | subscribe =>
      obtain ⟨t1, t2⟩ := greeting_whole w.values
      refine key (if k = n ∧ w.handles ≠ 0 then greeting w.values else []) (if w.handles ≠ 0 then n + 1 else n) _ _ ?_ ?_ rfl
      · simp only [Ev.givesAll, Bool.false_eq_true, if_false]
        by_cases hh : w.handles = 0 <;> by_cases hk : k = n <;> simp [hh, hk] <;> omega
      · simp only [Ev.mayClear, Bool.false_eq_true, if_false]
        split <;> omega
    | _ =>
      refine key [] n _ _ ?_ ?_ rfl
      · omega
      · omega

/-- **C103**, `MutableVec`: in any history, with any number of subscribers and in any order of calls and polls, a subscriber
gets at most one `Replace` that no call asked for, its first contents, and no `Clear` that no call asked for. -/
theorem C103_vec (vs : List α) (h : List (Ev α)) (w : World α) (hr : (World.init vs).runs h = some w) (k : Nat) :
    replaces (received k (World.init vs) h) ≤ 1 + h.countP Ev.givesAll ∧
      clearsIn (received k (World.init vs) h) ≤ h.countP Ev.mayClear := by
  obtain ⟨ds, hds⟩ : received k (World.init vs) h <+: sentTo k 0 (World.init vs) h := by
    cases hc : w.chans[k]? with
    | some c => exact (C97_vec vs h w hr k c hc).2
    | none =>
      have hlog := runs_log (inv_init vs) hr k
      have h0 : (World.init vs).log k = [] := by simp [World.log, World.init]
      rw [h0, List.nil_append] at hlog
      rw [← hlog]
      simp [World.log, hc]
  obtain ⟨h1, h2⟩ := sentTo_whole k 0 (World.init vs) h
  rw [← hds, replaces_append] at h1
  rw [← hds, clearsIn_append] at h2
  omega

theorem total_mono {γ : Type} (p : Pipe α γ) {c d : Nat → Nat} (h : ∀ i, c i ≤ d i) : p.total c ≤ p.total d := by
  induction p with
  | source i => exact h i
  | chain p q ihp ihq => exact Nat.add_le_add ihp ihq
  | _ => assumption

/-- **C103**, a pipeline on subscribers of a `MutableVec`: for each place where the pipeline uses a subscriber at most one
`Replace`, and one more for each call that gives the list as a whole.  In particular a pipeline on a `MutableVec` that is
only edited element by element sends each list once. -/
theorem C103_from_vec (vs : List α) (h : List (Ev α)) (w : World α) (hr : (World.init vs).runs h = some w) (p : Pipe α β)
    (hl : p.Lawful) (hf : p.Filters → ∀ i, p.Uses i → ∀ d ∈ (polled i (World.init vs) h).diffs, Fwd d) (t : Trace β)
    (he : p.Exec (fun k => polled k (World.init vs) h) t) :
    replaces t.diffs ≤ p.total (fun _ => 1 + h.countP Ev.givesAll) ∧
      clearsIn t.diffs ≤ p.total (fun _ => h.countP Ev.mayClear) := by
  obtain ⟨h1, h2⟩ := C103_pipe p hl _ (fun i _ => polled_replay hr i) hf t he
  refine ⟨Nat.le_trans h1 (total_mono p fun i => ?_), Nat.le_trans h2 (total_mono p fun i => ?_)⟩
  · rw [polled_diffs]; exact (C103_vec vs h w hr i).1
  · rw [polled_diffs]; exact (C103_vec vs h w hr i).2

/-- `demoOrigin` only edits, and the pipeline uses two subscribers: at most two `Replace`s, and in fact one. -/
example : demoOrigin.countP Ev.givesAll = 0 ∧ demoOrigin.countP Ev.mayClear = 0 ∧
    (World.init [1]).runs demoOrigin ≠ none ∧ replaces (received 0 (World.init [1]) demoOrigin) = 1 ∧
    (Pipe.chain (.map (· + 10) (.source 0)) (.source 1) : Pipe Nat Nat).total (fun _ => 1) = 2 :=
  ⟨rfl, rfl, Option.some_ne_none _, rfl, rfl⟩

/-- The bound of `C103_vec` is met. -/
example : (World.init [1]).runs ([.subscribe, .op (.replace [2]), .op .clear, .poll 0 3, .poll 0 3, .poll 0 3] :
      List (Ev Nat)) ≠ none ∧
    received 0 (World.init [1]) [.subscribe, .op (.replace [2]), .op .clear, .poll 0 3, .poll 0 3, .poll 0 3] =
      [.replace [1], .replace [2], .clear] :=
  ⟨Option.some_ne_none _, rfl⟩

end MutVec

namespace MutMap

variable [LinearOrder K]

/-- The calls that give the map as a whole. -/
def Ev.givesAll : Ev K V → Bool
  | .op (.replace _) => true
  | .op (.replaceCloned _) => true
  | _ => false

/-- The call that leaves nothing. -/
def Ev.clears : Ev K V → Bool
  | .op .clear => true
  | _ => false

theorem tells_whole (o : Op K V) (l : List (K × V)) :
    (o.tells l).countP MapDiff.isReplace ≤ (if (Ev.op o).givesAll then 1 else 0) ∧
      (o.tells l).countP MapDiff.isClear ≤ if (Ev.op o).clears then 1 else 0 := by
  cases o <;> simp only [Op.tells, Ev.givesAll, Ev.clears] <;> (repeat' split) <;>
    simp_all [MapDiff.isReplace, MapDiff.isClear]

theorem greeting_whole (l : List (K × V)) :
    (greeting l).countP MapDiff.isReplace ≤ 1 ∧ (greeting l).countP MapDiff.isClear = 0 := by
  unfold greeting
  split <;> simp [MapDiff.isReplace, MapDiff.isClear]

theorem sentTo_whole (k n : Nat) (w : World K V) (h : List (Ev K V)) :
    (sentTo k n w h).countP MapDiff.isReplace ≤ min 1 (k + 1 - n) + h.countP Ev.givesAll ∧
      (sentTo k n w h).countP MapDiff.isClear ≤ h.countP Ev.clears := by
  induction h generalizing n w with
  | nil => simp [sentTo]
  | cons e h ih =>
    rw [List.countP_cons, List.countP_cons]
    have n1 : ([] : List (MapDiff K V)).countP MapDiff.isReplace = 0 := rfl
    have n2 : ([] : List (MapDiff K V)).countP MapDiff.isClear = 0 := rfl
    have key : ∀ (now : List (MapDiff K V)) m a b,
        now.countP MapDiff.isReplace + min 1 (k + 1 - m) ≤ min 1 (k + 1 - n) + a →
        now.countP MapDiff.isClear ≤ b → sentTo k n w (e :: h) = (match w.step e with
          | none => now
          | some w' => now ++ sentTo k m w' h) →
        (sentTo k n w (e :: h)).countP MapDiff.isReplace ≤ min 1 (k + 1 - n) + (h.countP Ev.givesAll + a) ∧
          (sentTo k n w (e :: h)).countP MapDiff.isClear ≤ h.countP Ev.clears + b := by
      intro now m a b h1 h2 h3
      rw [h3]
      cases w.step e with
      | none => simp only; omega
      | some w' =>
        simp only [List.countP_append]
        obtain ⟨i1, i2⟩ := ih m w'
        omega
    cases e with
    | op o =>
      obtain ⟨t1, t2⟩ := tells_whole o w.values.1
      refine key (if k < n ∧ w.hub.handles ≠ 0 then o.tells w.values.1 else []) n _ _ ?_ ?_ rfl
      · split <;> omega
      · split <;> omega
    | subscribe =>
      obtain ⟨t1, t2⟩ := greeting_whole w.values.1
      refine key (if k = n ∧ w.hub.handles ≠ 0 then greeting w.values.1 else []) (if w.hub.handles ≠ 0 then n + 1 else n)
        _ _ ?_ ?_ rfl
      · simp only [Ev.givesAll, Bool.false_eq_true, if_false]
        by_cases hh : w.hub.handles = 0 <;> by_cases hk : k = n <;> simp [hh, hk] <;> omega
      · simp only [Ev.clears, Bool.false_eq_true, if_false]
        split <;> omega
    | _ =>
      refine key [] n _ _ ?_ ?_ rfl
      · omega
      · omega

/-- **C103**, `MutableBTreeMap`. -/
theorem C103_map (vs : BMap K V) (h : List (Ev K V)) (w : World K V) (hr : (World.init vs).runs h = some w) (k : Nat) :
    (received k (World.init vs) h).countP MapDiff.isReplace ≤ 1 + h.countP Ev.givesAll ∧
      (received k (World.init vs) h).countP MapDiff.isClear ≤ h.countP Ev.clears := by
  obtain ⟨ds, hds⟩ : received k (World.init vs) h <+: sentTo k 0 (World.init vs) h := by
    cases hc : w.hub.links[k]? with
    | some c => exact (C97_map vs h w hr k c hc).2
    | none =>
      have hlog := runs_log (inv_init vs) hr k
      have h0 : (World.init vs).hub.log k = [] := by simp [Hub.log, World.init]
      rw [h0, List.nil_append] at hlog
      rw [← hlog]
      simp [Hub.log, hc]
  obtain ⟨h1, h2⟩ := sentTo_whole k 0 (World.init vs) h
  rw [← hds, List.countP_append] at h1 h2
  omega

example : ((World.init demo0).runs tellHistory).isSome ∧ tellHistory.countP Ev.givesAll = 0 ∧
    received 0 (World.init demo0) tellHistory = [.replace demo0.1] := ⟨rfl, rfl, rfl⟩

end MutMap

end Verif
