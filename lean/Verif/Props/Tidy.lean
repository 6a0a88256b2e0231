import Verif.Tidy
import Verif.Props.Tells
import Verif.Replica

/-!
# C100: a `MutableVec` sends its changes in their plain form, and copies pass them on unchanged
-/

namespace Verif

variable {α : Type}

/-- Each of these changes, applied in this order, is in plain form. -/
def PlainFrom (ds : List (VecDiff α)) (zs : List α) : Prop :=
  ∀ a d b ys, ds = a ++ d :: b → replay a zs = some ys → Plain d ys

theorem plainFrom_nil (zs : List α) : PlainFrom [] zs := fun a d b ys h => by simp at h

theorem plainFrom_cons {d : VecDiff α} {ds : List (VecDiff α)} {zs : List α} (h : Plain d zs)
    (h' : ∀ ys, d.apply zs = some ys → PlainFrom ds ys) : PlainFrom (d :: ds) zs := by
  intro a e b ys he hr
  cases a with
  | nil =>
    cases he
    cases hr
    exact h
  | cons x a =>
    cases he
    simp only [replay] at hr
    split at hr
    · rename_i xs hx
      exact h' xs hx a e b ys rfl hr
    · cases hr

theorem plainFrom_single {d : VecDiff α} {zs : List α} (h : Plain d zs) : PlainFrom [d] zs :=
  plainFrom_cons h fun _ _ => plainFrom_nil _

theorem plainFrom_append {ds es : List (VecDiff α)} {zs ys : List α} (h : PlainFrom ds zs)
    (hr : replay ds zs = some ys) (h' : PlainFrom es ys) : PlainFrom (ds ++ es) zs := by
  intro a d b xs he hx
  rcases List.append_eq_append_iff.1 he with ⟨c, rfl, rfl⟩ | ⟨c, rfl, hc⟩
  · rw [replay_append, hr] at hx
    exact h' c d b xs rfl hx
  · cases c with
    | nil =>
      simp only [List.nil_append] at hc
      subst hc
      rw [List.append_nil] at hr
      rw [hr] at hx
      cases hx
      exact h' [] d b ys rfl rfl
    | cons x c =>
      simp only [List.cons_append, List.cons.injEq] at hc
      obtain ⟨rfl, rfl⟩ := hc
      exact h a d c xs rfl hx

theorem plainFrom_prefix {ds es : List (VecDiff α)} {zs : List α} (h : PlainFrom (ds ++ es) zs) : PlainFrom ds zs :=
  fun a d b ys he hr => h a d (b ++ es) ys (by simp [he]) hr

theorem plainFrom_always {ds : List (VecDiff α)} (h : ∀ d ∈ ds, ∀ l, Plain d l) (zs : List α) : PlainFrom ds zs := by
  rintro a d b ys rfl -
  exact h d (by simp) ys

/-- The plain form of a plain change. -/
theorem tidy_plain {d : VecDiff α} {l : List α} (h : Plain d l) : tidy d l = [d] := by
  cases d with
  | insertAt i a => exact if_neg h
  | removeAt i => exact if_neg h
  | move i j => exact if_neg h
  | clear => exact if_neg h
  | _ => rfl

theorem tidied_plain {ds : List (VecDiff α)} {l v : List α} (h : PlainFrom ds l) (hv : replay ds l = some v) :
    tidied ds l = ds := by
  induction ds generalizing l with
  | nil => rfl
  | cons d ds ih =>
    simp only [replay] at hv
    split at hv
    · rename_i l' hl
      simp only [tidied, hl, tidy_plain (h [] d ds l rfl rfl)]
      rw [ih ?_ hv]
      · rfl
      · intro a e b ys he hr
        exact h (d :: a) e b ys (by simp [he]) (by simp [replay, hl, hr])
    · cases hv

end Verif

namespace Verif.MutVec

variable {α : Type}

theorem removalDiffs_plain (is : List Nat) {n : Nat} {l : List α} (hn : l.length = n) :
    PlainFrom (removalDiffs is n) l := by
  induction is generalizing n l with
  | nil => exact plainFrom_nil _
  | cons i is ih =>
    simp only [removalDiffs]
    split
    · refine plainFrom_cons trivial fun ys hy => ih ?_
      have := apply_eq_some.1 hy
      cases this with
      | pop l b => simp at hn; omega
    · rename_i hi
      refine plainFrom_cons (by show i + 1 ≠ l.length; omega) fun ys hy => ih ?_
      have := apply_eq_some.1 hy
      cases this with
      | removeAt p b q => simp at hn ⊢; omega

theorem rangeDiffs_plain (start stop : Nat) (l : List α) : PlainFrom (rangeDiffs start stop l.length) l := by
  unfold rangeDiffs
  split
  · split
    · refine plainFrom_single ?_
      rintro rfl
      simp only [List.length_nil] at *
      omega
    · exact removalDiffs_plain _ rfl
  · exact plainFrom_nil _

theorem diffs_plain {o : Op α} {l : List α} {r} (h : o.spec l = some r) : PlainFrom (o.tells l) l := by
  cases o with
  | retain f =>
    rw [← tells_eq h]
    simp only [Op.diffs]
    split
    · exact plainFrom_nil _
    · split
      · refine plainFrom_single ?_
        rintro rfl
        simp at *
      · exact removalDiffs_plain _ rfl
  | drain lo hi => rw [← tells_eq h]; exact rangeDiffs_plain _ _ _
  | truncate n => rw [← tells_eq h]; exact rangeDiffs_plain _ _ _
  | extend vs =>
    refine plainFrom_always ?_ _
    intro d hd l
    obtain ⟨v, -, rfl⟩ := List.mem_map.1 hd
    trivial
  | reverse =>
    refine plainFrom_always ?_ _
    intro d hd _
    obtain ⟨v, hv, rfl⟩ := List.mem_map.1 hd
    have := List.mem_range.1 hv
    show l.length - 1 ≠ v
    omega
  | swap a b =>
    refine plainFrom_always ?_ _
    intro d hd l'
    simp only [Op.tells] at hd
    split at hd
    · cases hd
    · split at hd
      · cases List.mem_singleton.1 hd; assumption
      · split at hd
        · simp only [List.mem_cons, List.not_mem_nil, or_false] at hd
          rcases hd with rfl | rfl
          · assumption
          · show b - 1 ≠ a; omega
        · simp only [List.mem_cons, List.not_mem_nil, or_false] at hd
          rcases hd with rfl | rfl
          · assumption
          · show b + 1 ≠ a; omega
  | applyVecDiff d =>
    cases d with
    | insertAt i a => simp only [Op.tells]; split <;> exact plainFrom_single (by first | trivial | assumption)
    | removeAt i => simp only [Op.tells]; split <;> exact plainFrom_single (by first | trivial | assumption)
    | move i j =>
      simp only [Op.tells]
      split
      · exact plainFrom_nil _
      · exact plainFrom_single (by assumption)
    | clear =>
      simp only [Op.tells]
      split
      · exact plainFrom_nil _
      · exact plainFrom_single (by assumption)
    | _ => exact plainFrom_single trivial
  | pop =>
    simp only [Op.tells]
    split
    · exact plainFrom_nil _
    · exact plainFrom_single trivial
  | remove i => simp only [Op.tells]; split <;> exact plainFrom_single (by first | trivial | assumption)
  | clear =>
    simp only [Op.tells]
    split
    · exact plainFrom_nil _
    · exact plainFrom_single (by assumption)
  | moveFromTo i j =>
    simp only [Op.tells]
    split
    · exact plainFrom_nil _
    · exact plainFrom_single (by assumption)
  | insert i a => simp only [Op.tells]; split <;> exact plainFrom_single (by first | trivial | assumption)
  | insertCloned i a => simp only [Op.tells]; split <;> exact plainFrom_single (by first | trivial | assumption)
  | _ => exact plainFrom_single trivial

theorem sentTo_plain (k n : Nat) (w w' : World α) (h : List (Ev α)) (hr : w.runs h = some w') :
    PlainFrom (sentTo k n w h) (if k < n then w.values else []) := by
  induction h generalizing n w with
  | nil => exact plainFrom_nil _
  | cons e h ih =>
    simp only [World.runs] at hr
    cases hs : w.step e with
    | none => simp [hs] at hr
    | some w1 =>
      simp only [hs] at hr
      -- an event without a call
      have quiet : e.call? = none → w1.values = w.values := fun he => by
        obtain ⟨w2, h2, h3⟩ := step_quiet (w := w) he
        rw [hs] at h2
        cases h2
        exact h3
      cases e with
      | op o =>
        simp only [sentTo, hs]
        by_cases hh : w.handles = 0
        · simp only [World.step, hh, if_true, Option.some.injEq] at hs
          subst hs
          simp only [hh, ne_eq, not_true, and_false, if_false, List.nil_append]
          exact ih n _ hr
        · simp only [World.step, hh, if_false, exec_eq] at hs
          cases hsp : o.spec w.values with
          | none => simp [hsp] at hs
          | some sp =>
            simp only [hsp, Option.map_some, Option.some.injEq] at hs
            subst hs
            have h2 := ih n _ hr
            by_cases hk : k < n
            · simp only [hk, hh, ne_eq, not_false_eq_true, and_self, if_true] at h2 ⊢
              refine plainFrom_append (diffs_plain hsp) ?_ h2
              rw [← tells_eq hsp]
              exact replay_diffs o _ sp hsp
            · simp only [hk, if_false, false_and, List.nil_append] at h2 ⊢
              exact h2
      | subscribe =>
        simp only [sentTo, hs]
        rw [← quiet rfl]
        by_cases hh : w.handles = 0
        · simp only [hh, ne_eq, not_true, and_false, if_false, List.nil_append]
          exact ih n _ hr
        · have h2 := ih (n + 1) _ hr
          by_cases hk : k = n
          · subst hk
            simp only [hh, ne_eq, not_false_eq_true, and_self, if_true, Nat.lt_irrefl, if_false,
              Nat.lt_succ_self] at h2 ⊢
            refine plainFrom_append ?_ ?_ h2
            · unfold greeting
              split
              · exact plainFrom_nil _
              · exact plainFrom_single trivial
            · unfold greeting
              split
              · rename_i hv; rw [hv]; rfl
              · rfl
          · have : (k < n + 1) = (k < n) := by apply propext; omega
            simp only [hk, hh, ne_eq, not_false_eq_true, false_and, if_false, if_true, this, List.nil_append] at h2 ⊢
            exact h2
      | _ =>
        simp only [sentTo, hs, List.nil_append]
        rw [← quiet rfl]
        exact ih n _ hr

/-- **C100**, every change that a subscriber of a `MutableVec` gets is in plain form, for the list it describes so far. -/
theorem C100_plain (vs : List α) (h : List (Ev α)) (w : World α) (hr : (World.init vs).runs h = some w) (k : Nat)
    (a b : List (VecDiff α)) (d : VecDiff α) (he : received k (World.init vs) h = a ++ d :: b) :
    ∃ l, replay a [] = some l ∧ Plain d l := by
  obtain ⟨ds, hds⟩ : received k (World.init vs) h <+: sentTo k 0 (World.init vs) h := by
    cases hc : w.chans[k]? with
    | some c => exact (C97_vec vs h w hr k c hc).2
    | none =>
      have hlog := runs_log (inv_init vs) hr k
      have h0 : (World.init vs).log k = [] := by simp [World.log, World.init]
      rw [h0, List.nil_append] at hlog
      rw [← hlog]
      simp [World.log, hc]
  have hp := sentTo_plain k 0 _ w h hr
  rw [← hds] at hp
  simp only [Nat.not_lt_zero, if_false] at hp
  obtain ⟨l, hl⟩ : ∃ l, replay a [] = some l := by
    obtain ⟨ys, hy⟩ : ∃ ys, replay (received k (World.init vs) h) [] = some ys := by
      cases hc : w.chans[k]? with
      | some c => exact (C01_mirror vs h w hr k c hc).1
      | none =>
        rw [he] at hds
        have hlog := runs_log (inv_init vs) hr k
        have h0 : (World.init vs).log k = [] := by simp [World.log, World.init]
        rw [h0, List.nil_append] at hlog
        rw [← hlog]
        exact ⟨[], by simp [World.log, hc, replay]⟩
    rw [he] at hy
    exact replay_prefix (by rw [hy]; rfl)
  exact ⟨l, hl, plainFrom_prefix hp a d b l he hl⟩

theorem sentTo_copy {w : World α} {g : List (Ev α)} {ds : List (VecDiff α)} {v : List α} (hc : Copies ds g)
    (hh : Held w g) (hv : replay ds w.values = some v) (n : Nat) :
    sentTo 0 (n + 1) w g = tidied ds w.values := by
  induction g generalizing w ds n with
  | nil =>
    have : ds = [] := by
      simp only [Copies, List.filterMap_nil] at hc
      exact List.map_eq_nil_iff.1 hc.symm
    subst this
    rfl
  | cons e g ih =>
    cases e with
    | op o =>
      obtain ⟨a, d, b, rfl, rfl, ha⟩ := copies_prefix (h1 := []) hc
      have : a = [] := by
        simp only [Copies, List.filterMap_nil] at ha
        exact List.map_eq_nil_iff.1 ha.symm
      subst this
      have hc' : Copies b g := by
        simp only [Copies, List.nil_append, List.filterMap_cons, Ev.call?, List.map_cons, List.cons.injEq, true_and] at hc
        exact hc
      have hhand : w.handles ≠ 0 := hh [] _ g w rfl rfl
      simp only [List.nil_append, replay] at hv
      split at hv
      · rename_i l' hl
        obtain ⟨w1, hs, hw1⟩ := step_copy hhand hl
        have := ih hc' (held_tail hh hs) (by rw [hw1]; exact hv) n
        simp only [sentTo, hs, hhand, ne_eq, not_false_eq_true, and_true, Nat.zero_lt_succ, if_true, List.nil_append,
          tidied, hl]
        rw [this, hw1]
        congr 1
        cases d <;> rfl
      · cases hv
    | subscribe =>
      obtain ⟨w1, hs, hw1⟩ := step_quiet (w := w) (e := .subscribe) rfl
      have hc' : Copies ds g := hc
      have hn : ¬ (0 = n + 1 ∧ w.handles ≠ 0) := by simp
      simp only [sentTo, hs, if_neg hn, List.nil_append]
      rw [← hw1] at hv ⊢
      split
      · exact ih hc' (held_tail hh hs) hv (n + 1)
      · exact ih hc' (held_tail hh hs) hv n
    | poll i x =>
      obtain ⟨w1, hs, hw1⟩ := step_quiet (w := w) (e := .poll i x) rfl
      simp only [sentTo, hs, List.nil_append]
      rw [← hw1] at hv ⊢
      exact ih hc (held_tail hh hs) hv n
    | dropRx i =>
      obtain ⟨w1, hs, hw1⟩ := step_quiet (w := w) (e := .dropRx i) rfl
      simp only [sentTo, hs, List.nil_append]
      rw [← hw1] at hv ⊢
      exact ih hc (held_tail hh hs) hv n
    | cloneHandle =>
      obtain ⟨w1, hs, hw1⟩ := step_quiet (w := w) (e := .cloneHandle) rfl
      simp only [sentTo, hs, List.nil_append]
      rw [← hw1] at hv ⊢
      exact ih hc (held_tail hh hs) hv n
    | dropHandle =>
      obtain ⟨w1, hs, hw1⟩ := step_quiet (w := w) (e := .dropHandle) rfl
      simp only [sentTo, hs, List.nil_append]
      rw [← hw1] at hv ⊢
      exact ih hc (held_tail hh hs) hv n

/-- No channel is taken away. -/
theorem chans_runs {w w' : World α} (hw : Inv w) {h : List (Ev α)} (hr : w.runs h = some w') :
    w.chans.length ≤ w'.chans.length := by
  induction h generalizing w with
  | nil => cases hr; exact Nat.le_refl _
  | cons e es ih =>
    simp only [World.runs] at hr
    cases hs : w.step e with
    | none => simp [hs] at hr
    | some w1 =>
      simp only [hs] at hr
      have h1 := ih (inv_step hw hs) hr
      have h2 := (sent_step (T := []) (k := w.chans.length) hw
        ⟨fun _ => rfl, fun c hc => by simp at hc⟩ hs).2
      cases e <;> simp only at h2 <;> (try split at h2) <;> omega

/-- **C100**, a `MutableVec` that changes are applied to with `apply_vec_diff` sends the plain form of those changes. -/
theorem C100_copy (ds : List (VecDiff α)) (v : List α) (hv : replay ds [] = some v) (g : List (Ev α)) (hc : Copies ds g)
    (hh : Held (World.init []) (.subscribe :: g)) :
    ∃ w c, (World.init []).runs (.subscribe :: g) = some w ∧ w.chans[0]? = some c ∧
      (c.rxAlive = true → received 0 (World.init []) (.subscribe :: g) ++ c.queue = tidied ds []) ∧
      received 0 (World.init []) (.subscribe :: g) <+: tidied ds [] := by
  obtain ⟨w, hw, -⟩ := runs_copies (w := World.init []) (h := .subscribe :: g) (ds := ds) (v := v) hc hh hv
  have hs : sentTo 0 0 (World.init []) (.subscribe :: g) = tidied ds [] := by
    obtain ⟨w1, hs, hw1⟩ := step_quiet (w := World.init ([] : List α)) (e := .subscribe) rfl
    have hv1 : w1.values = [] := hw1
    have := sentTo_copy (w := w1) (n := 0) hc (held_tail hh hs) (v := v) (by rw [hv1]; exact hv)
    rw [hv1] at this
    rw [← this]
    simp only [sentTo, hs]
    rfl
  have hlen : ∃ c, w.chans[0]? = some c := by
    obtain ⟨w1, hs1, -⟩ := step_quiet (w := World.init ([] : List α)) (e := .subscribe) rfl
    have hl1 : w1.chans.length = 1 := by
      cases hs1
      rfl
    have hw' : w1.runs g = some w := by
      simpa only [World.runs, hs1] using hw
    have := chans_runs (inv_step (inv_init []) hs1) hw'
    exact ⟨w.chans[0]'(by omega), List.getElem?_eq_getElem _⟩
  obtain ⟨c, hc0⟩ := hlen
  have := C97_vec [] (.subscribe :: g) w hw 0 c hc0
  rw [hs] at this
  exact ⟨w, c, hw, hc0, this.1, this.2⟩

/-- What any subscriber got can be replayed. -/
theorem received_replay (vs : List α) (h : List (Ev α)) (w : World α) (hr : (World.init vs).runs h = some w) (k : Nat) :
    ∃ ys, replay (received k (World.init vs) h) [] = some ys := by
  cases hc : w.chans[k]? with
  | some c => exact (C01_mirror vs h w hr k c hc).1
  | none =>
    have hlog := runs_log (inv_init vs) hr k
    have h0 : (World.init vs).log k = [] := by simp [World.log, World.init]
    rw [h0, List.nil_append] at hlog
    rw [← hlog]
    exact ⟨[], by simp [World.log, hc, replay]⟩

/-- **C100**, a copy passes the changes on unchanged: when a task applies what a subscriber of a `MutableVec` got to an
empty `MutableVec` with `apply_vec_diff`, then a subscriber which that one had from the start has received or has waiting
the same changes, in the same order and in the same number. -/
theorem C100_passed_on (vs : List α) (h : List (Ev α)) (v : World α) (hr : (World.init vs).runs h = some v) (k : Nat)
    (g : List (Ev α)) (hc : Copies (received k (World.init vs) h) g) (hh : Held (World.init []) (.subscribe :: g)) :
    ∃ w c, (World.init []).runs (.subscribe :: g) = some w ∧ w.chans[0]? = some c ∧
      (c.rxAlive = true → received 0 (World.init []) (.subscribe :: g) ++ c.queue = received k (World.init vs) h) ∧
      received 0 (World.init []) (.subscribe :: g) <+: received k (World.init vs) h := by
  obtain ⟨ys, hy⟩ := received_replay vs h v hr k
  have hp : PlainFrom (received k (World.init vs) h) [] := by
    intro a d b l he hl
    obtain ⟨l', hl', hd⟩ := C100_plain vs h v hr k a b d he
    rw [hl] at hl'
    cases hl'
    exact hd
  have := C100_copy _ ys hy g hc hh
  rwa [tidied_plain hp hy] at this

/-- **C100**, any number of copies of copies: a subscriber of the last list gets a beginning of the changes that the
subscriber of the first list got. -/
theorem C100_copies_of_copies (n : Nat) (vs : List α) (k : Nat) (h : List (Ev α)) (hr : (World.init vs).runs h ≠ none)
    (g : Nat → List (Ev α))
    (h0 : Copies (received k (World.init vs) h) (g 0))
    (hc : ∀ i, i < n → Copies (received 0 (World.init []) (.subscribe :: g i)) (g (i + 1)))
    (hh : ∀ i, i ≤ n → Held (World.init []) (.subscribe :: g i)) :
    (World.init []).runs (.subscribe :: g n) ≠ none ∧
    received 0 (World.init []) (.subscribe :: g n) <+: received k (World.init vs) h := by
  induction n with
  | zero =>
    cases hv : (World.init vs).runs h with
    | none => exact absurd hv hr
    | some v =>
      obtain ⟨w, c, h1, -, -, h2⟩ := C100_passed_on vs h v hv k (g 0) h0 (hh 0 (Nat.le_refl _))
      exact ⟨by rw [h1]; simp, h2⟩
  | succ n ih =>
    obtain ⟨h1, h2⟩ := ih (fun i hi => hc i (by omega)) fun i hi => hh i (by omega)
    cases hv : (World.init ([] : List α)).runs (.subscribe :: g n) with
    | none => exact absurd hv h1
    | some v =>
      obtain ⟨w, c, h3, -, -, h4⟩ := C100_passed_on [] _ v hv 0 (g (n + 1)) (hc n (by omega)) (hh (n + 1) (Nat.le_refl _))
      exact ⟨by rw [h3]; simp, h4.trans h2⟩

/-! ## Non-vacuity -/

theorem held_of' {vs : List Nat} {h : List (Ev Nat)} (hn : ∀ e ∈ h, e ≠ .dropHandle) : Held (World.init vs) h := by
  intro h1 o h2 w1 he hr
  have key : ∀ (l : List (Ev Nat)) (w w' : World Nat), (∀ e ∈ l, e ≠ .dropHandle) → w.handles ≠ 0 →
      w.runs l = some w' → w'.handles ≠ 0 := by
    intro l
    induction l with
    | nil => intro w w' _ hw hr; cases hr; exact hw
    | cons e l ih =>
      intro w w' hl hw hr
      simp only [World.runs] at hr
      cases hs : w.step e with
      | none => simp [hs] at hr
      | some w1 =>
        simp only [hs] at hr
        exact ih w1 w' (fun e' he' => hl e' (by simp [he'])) (step_handles hw (hl e (by simp)) hs) hr
  exact key h1 (World.init vs) w1 (fun e hm => hn e (by rw [he]; simp [hm])) (by simp [World.init]) hr

/-- Inserting and removing at the end, and truncating, are sent as `Push` and `Pop`. -/
def demoTidy : List (Ev Nat) :=
  [.subscribe, .op (.insert 2 8), .op (.insert 0 7), .op (.remove 3), .op (.moveFromTo 0 0), .op (.moveFromTo 0 1), .op .clear, .op .clear,
    .poll 0 4, .poll 0 4, .poll 0 4, .poll 0 4, .poll 0 4, .poll 0 4, .poll 0 4]

example : (World.init [1, 2]).runs demoTidy ≠ none ∧
    received 0 (World.init [1, 2]) demoTidy =
      [.replace [1, 2], .push 8, .insertAt 0 7, .pop, .move 0 1, .clear] :=
  ⟨Option.some_ne_none _, by rfl⟩

/-- A source that does not write its changes plainly, as `filter` does for an element inserted after all that it lets
through: the copy sends `Push`, `Pop`, and nothing for `Clear` of what is empty. -/
def demoUntidy : List (VecDiff Nat) := [.insertAt 0 5, .insertAt 1 6, .move 0 0, .removeAt 1, .removeAt 0, .clear]

def demoUntidyCopy : List (Ev Nat) :=
  [.op (.applyVecDiff (.insertAt 0 5)), .poll 0 3, .op (.applyVecDiff (.insertAt 1 6)), .op (.applyVecDiff (.move 0 0)),
    .op (.applyVecDiff (.removeAt 1)), .poll 0 3, .subscribe, .op (.applyVecDiff (.removeAt 0)), .op (.applyVecDiff .clear),
    .poll 0 3, .poll 0 3, .poll 0 3]

example : replay demoUntidy [] = some [] ∧ Copies demoUntidy demoUntidyCopy ∧
    Held (World.init []) (.subscribe :: demoUntidyCopy) ∧
    tidied demoUntidy [] = [.push 5, .push 6, .pop, .pop] ∧
    received 0 (World.init []) (.subscribe :: demoUntidyCopy) = [.push 5, .push 6, .pop, .pop] :=
  ⟨rfl, rfl, held_of' (by simp [demoUntidyCopy]), rfl, rfl⟩

/-- Three lists in a row. -/
def demoPassed : List (Ev Nat) :=
  [.op (.applyVecDiff (.replace [1, 2])), .op (.applyVecDiff (.push 8)), .poll 0 3, .op (.applyVecDiff (.insertAt 0 7)),
    .op (.applyVecDiff .pop), .poll 0 3, .op (.applyVecDiff (.move 0 1)), .op (.applyVecDiff .clear),
    .poll 0 3, .poll 0 3, .poll 0 3, .poll 0 3]

example : (World.init [1, 2]).runs demoTidy ≠ none ∧ Copies (received 0 (World.init [1, 2]) demoTidy) demoPassed ∧
    Copies (received 0 (World.init []) (.subscribe :: demoPassed)) demoPassed ∧
    Held (World.init []) (.subscribe :: demoPassed) ∧
    received 0 (World.init []) (.subscribe :: demoPassed) =
      [.replace [1, 2], .push 8, .insertAt 0 7, .pop, .move 0 1, .clear] :=
  ⟨Option.some_ne_none _, rfl, rfl, held_of' (by simp [demoPassed]), rfl⟩

end Verif.MutVec
