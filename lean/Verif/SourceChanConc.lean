import Verif.Props.ChannelConc
import Verif.Sink

/-!
# The `Receiver` of a channel that other threads send to, as a source of expressions

For C80: the polls of the receiver in an interleaved history (`Verif/ChannelConc.lean`), and what is
known about the last one.
-/

namespace Verif.ChanConc

variable {α : Type}

/-! ## Specification -/

/-- The value that a step stores (a `send`, `/repo/src/signal/channel.rs:60`). -/
def World.storing (m : World α) : Ev α → Option α
  | .step i =>
    match m.calls[i]? with
    | some (.sendStore b) => some b
    | _ => none
  | _ => none

/-- The value stored last in a history from `m`, or else `a`. -/
def World.latest (m : World α) (a : α) : List (Ev α) → α
  | [] => a
  | e :: es =>
    match m.step e with
    | none => a
    | some (_, m') => m'.latest ((m.storing e).getD a) es

/-- The last poll was with waker `x`, which has been woken since. -/
def WokenSince (m : World α) (x : Waker) : Prop := x ∈ m.woken.drop m.regAt

/-- If the receiver has ended, then it left no value behind. -/
def CleanEnd (m : World α) : Prop :=
  ∀ x, m.answers.getLast? = some (x, .ready none) → m.value = none

/-! ## Lemmas -/

theorem latest_snoc {m m1 m' : World α} {es : List (Ev α)} {os : List Unit} {a : α} {e : Ev α}
    (h : runE World.step m es = some (os, m1)) (he : m1.step e = some ((), m')) :
    m.latest a (es ++ [e]) = (m1.storing e).getD (m.latest a es) := by
  induction es generalizing m os a with
  | nil =>
    cases h
    simp [World.latest, he]
  | cons x es ih =>
    simp only [runE] at h
    split at h
    · cases h
    · rename_i o m2 hx
      split at h
      · cases h
      · rename_i os2 m3 h2
        cases h
        simp only [List.cons_append, World.latest, hx]
        exact ih h2

/-- What has been seen. -/
structure Seen (a : α) (es : List (Ev α)) (m : World α) : Prop where
  first : (m.answers = [] ∧ m.value ≠ none ∧ (m.r = .idle ∨ ∃ w, m.r = .take w)) ∨
    ∃ b, m.answers.head?.map (·.2) = some (.ready (some b))
  value : m.value = some ((World.init a).latest a es) ∨
    m.value = none ∧ SigTrace.last m.answers = some ((World.init a).latest a es)

theorem head_snoc {l : SigTrace α} {b : α} (h : l.head?.map (·.2) = some (.ready (some b)))
    (x : Waker × Poll (Option α)) : (l ++ [x]).head?.map (·.2) = some (.ready (some b)) := by
  cases l with
  | nil => simp at h
  | cons y l => simpa using h

/-- A step that stores no value, if it leaves the value, the answers and the receiver alone. -/
theorem seen_same {a : α} {es : List (Ev α)} {m m' : World α} {e : Ev α} {os : List Unit}
    (h1 : runE World.step (World.init a) es = some (os, m)) (h2 : m.step e = some ((), m'))
    (h : Seen a es m) (hs : m.storing e = none) (hv : m'.value = m.value)
    (ha : m'.answers = m.answers) (hr : m'.r = m.r) : Seen a (es ++ [e]) m' := by
  refine ⟨?_, ?_⟩
  · rw [hv, ha, hr]; exact h.first
  · rw [latest_snoc h1 h2, hs, hv, ha]; exact h.value

theorem seen {a : α} {es : List (Ev α)} {m : World α} {os : List Unit}
    (h : runE World.step (World.init a) es = some (os, m)) : Seen a es m := by
  revert os m
  refine snoc_ind (P := fun es => ∀ {m : World α} {os : List Unit},
    runE World.step (World.init a) es = some (os, m) → Seen a es m) ?_ ?_ es
  · intro m os h
    cases h
    exact ⟨.inl ⟨rfl, by simp [World.init], .inl rfl⟩, .inl rfl⟩
  · intro es e ih m' os' h
    obtain ⟨os, o, m, h1, h2, rfl⟩ := runE_snoc h
    have hS := ih h1
    cases e with
    | step i =>
      obtain ⟨l1, pc, l2, m1, o, hc, hi, he, rfl⟩ := step_split h2
      cases pc with
      | sendStore b =>
        cases he
        refine ⟨?_, .inl ?_⟩
        · rcases hS.first with ⟨k1, k2, k3⟩ | k
          · exact .inl ⟨k1, by simp, k3⟩
          · exact .inr k
        · rw [latest_snoc h1 h2]
          simp [World.storing, hi]
      | _ =>
        have hs : m.storing (.step i) = none := by simp [World.storing, hi]
        have hk : m1.value = m.value ∧ m1.answers = m.answers ∧ m1.r = m.r := by
          simp only [World.exec] at he
          repeat' split at he
          all_goals (cases he; exact ⟨rfl, rfl, rfl⟩)
        exact seen_same h1 h2 hS hs hk.1 hk.2.1 hk.2.2
    | callPoll w =>
      have h3 := h2
      simp only [World.step] at h2
      split at h2
      · cases h2
        refine ⟨?_, ?_⟩
        · rcases hS.first with ⟨k1, k2, k3⟩ | k
          · exact .inl ⟨k1, k2, .inr ⟨w, rfl⟩⟩
          · exact .inr k
        · rw [latest_snoc h1 h3]; exact hS.value
      · cases h2
    | rstep =>
      have hl := latest_snoc (a := a) h1 h2
      simp only [World.storing, Option.getD_none] at hl
      simp only [World.step] at h2
      split at h2
      · cases h2
      · rename_i w hr
        split at h2
        · rename_i b hb
          cases h2
          refine ⟨.inr ?_, .inr ⟨rfl, ?_⟩⟩
          · rcases hS.first with ⟨k1, -⟩ | ⟨c, k⟩
            · exact ⟨b, by simp [k1]⟩
            · exact ⟨c, head_snoc k _⟩
          · rw [hl]
            have : m.value = some ((World.init a).latest a es) := hS.value.resolve_right (by simp [hb])
            rw [← this, hb]
            simp [SigTrace.last, items_append, items]
        · rename_i hb
          cases h2
          refine ⟨?_, by rw [hl]; exact hS.value⟩
          rcases hS.first with ⟨-, k, -⟩ | k
          · exact absurd hb k
          · exact .inr k
      · rename_i w hr
        have hf : ∃ b, m.answers.head?.map (·.2) = some (.ready (some b)) := by
          rcases hS.first with ⟨-, -, k | ⟨_, k⟩⟩ | k
          · rw [hr] at k; cases k
          · rw [hr] at k; cases k
          · exact k
        split at h2
        · cases h2
          refine ⟨.inr ?_, ?_⟩
          · obtain ⟨c, k⟩ := hf
            exact ⟨c, head_snoc k _⟩
          · rw [hl]
            simpa [SigTrace.last, items_append, items] using hS.value
        · cases h2
          exact ⟨.inr hf, by rw [hl]; exact hS.value⟩
      · rename_i w hr
        have hf : ∃ b, m.answers.head?.map (·.2) = some (.ready (some b)) := by
          rcases hS.first with ⟨-, -, k | ⟨_, k⟩⟩ | k
          · rw [hr] at k; cases k
          · rw [hr] at k; cases k
          · exact k
        cases h2
        refine ⟨.inr ?_, ?_⟩
        · obtain ⟨c, k⟩ := hf
          exact ⟨c, head_snoc k _⟩
        · rw [hl]
          simpa [SigTrace.last, items_append, items] using hS.value
    | _ =>
      have h3 := h2
      simp only [World.step] at h2
      split at h2 <;> cases h2
      exact seen_same h1 h3 hS rfl rfl rfl rfl

theorem answers_rest {a : α} {es : List (Ev α)} {m : World α} (h : (World.init a).runs es = some m)
    (h1 : NoOverlap a es) (h2 : NoWindow a es) (hr : AtRest m) (hc : CleanEnd m)
    {o : Option Waker} (ho : Rest o m.answers) :
    SigTrace.last m.answers = some ((World.init a).latest a es) ∨
      ∃ x, o = some x ∧ WokenSince m x := by
  obtain ⟨os, hos⟩ := runs_runE h
  have hS := seen hos
  rcases ho with ⟨x, rfl, hx⟩ | ⟨y, hy⟩
  · rcases C41_no_window_partial a es h1 h2 m x h hr hx with ⟨k, -⟩ | k
    · refine .inl (hS.value.resolve_left ?_).2
      simp [k]
    · exact .inr ⟨x, rfl, k⟩
  · refine .inl (hS.value.resolve_left ?_).2
    simp [hc y hy]

end Verif.ChanConc
