import Verif.SignalA
import Verif.SignalASpec
import Verif.Polite

/-!
# Lemmas for the `Signal` combinators with one input
-/

namespace Verif

variable {α β σ κ : Type}

/-! ## `distinctFrom`, `dedup` -/

theorem distinctFrom_snoc [BEq α] (left : α → α) (p : Option α) (l : List α) (a : α) :
    distinctFrom left p (l ++ [a]) = distinctFrom left p l ++
      (match ((distinctFrom left p l).getLast?.map left).or p with
        | none => [a]
        | some o => if o == a then [] else [a]) := by
  induction l generalizing p with
  | nil => cases p <;> simp [distinctFrom]
  | cons b l ih =>
    have key : ∀ q, ((b :: distinctFrom left (some q) l).getLast?.map left).or p =
        (((distinctFrom left (some q) l).getLast?.map left).or (some (left b))) := by
      intro q
      rw [List.getLast?_cons]
      cases (distinctFrom left (some q) l).getLast? <;> simp
    cases p with
    | none =>
      simp only [List.cons_append, distinctFrom, ih]
      rw [key]
    | some o =>
      simp only [List.cons_append, distinctFrom]
      by_cases h : (o == b) = true
      · simp only [h, if_true, ih]
      · simp only [h, Bool.false_eq_true, if_false, List.cons_append, ih]
        rw [key]

/-- No two consecutive elements of `dedup l` are equal. -/
theorem dedup_consecutive [BEq α] [LawfulBEq α] (l : List α) (i : Nat) (a b : α)
    (h1 : (dedup l)[i]? = some a) (h2 : (dedup l)[i + 1]? = some b) : a ≠ b := by
  have key : ∀ (p : Option α) (l : List α), (∀ o, p = some o → (distinctFrom id p l)[0]? ≠ some o) ∧
      ∀ i a b, (distinctFrom id p l)[i]? = some a → (distinctFrom id p l)[i + 1]? = some b → a ≠ b := by
    intro p l
    induction l generalizing p with
    | nil => cases p <;> simp [distinctFrom]
    | cons c l ih =>
      have hc : ∀ i a b, (c :: distinctFrom id (some c) l)[i]? = some a →
          (c :: distinctFrom id (some c) l)[i + 1]? = some b → a ≠ b := by
        intro i a b ha hb
        cases i with
        | zero =>
          simp only [List.getElem?_cons_zero, Option.some.injEq] at ha
          simp only [Nat.zero_add, List.getElem?_cons_succ] at hb
          subst ha
          rintro rfl
          exact (ih (some c)).1 c rfl hb
        | succ i =>
          simp only [List.getElem?_cons_succ] at ha hb
          exact (ih (some c)).2 i a b ha hb
      cases p with
      | none => exact ⟨by simp, by simpa [distinctFrom] using hc⟩
      | some o =>
        by_cases h : (o == c) = true
        · have h' : o = c := by simpa using h
          simp only [distinctFrom, h, if_true]
          exact ih _
        · have h' : o ≠ c := by simpa using h
          simp only [distinctFrom, h, Bool.false_eq_true, if_false]
          exact ⟨by rintro _ ⟨⟩; simpa using Ne.symm h', by simpa using hc⟩
  exact (key none l).2 i a b h1 h2

/-- `dedup` does not lose the current value. -/
theorem dedup_getLast? [BEq α] [LawfulBEq α] (l : List α) : (dedup l).getLast? = l.getLast? := by
  have key : ∀ (l : List α) (p : Option α), ((distinctFrom id p l).getLast?).or p = (l.getLast?).or p := by
    intro l
    induction l with
    | nil => intro p; cases p <;> rfl
    | cons c l ih =>
      intro p
      have hc : ((c :: distinctFrom id (some c) l).getLast?).or p = ((c :: l).getLast?).or p := by
        have := ih (some c)
        rw [List.getLast?_cons, List.getLast?_cons]
        cases h1 : (distinctFrom id (some c) l).getLast? <;> cases h2 : l.getLast? <;>
          simp_all
      cases p with
      | none => simpa [distinctFrom] using hc
      | some o =>
        by_cases h : (o == c) = true
        · have h' : o = c := by simpa using h
          subst h'
          simp only [distinctFrom, h, if_true]
          rw [ih, List.getLast?_cons]
          cases l.getLast? <;> simp
        · simp only [distinctFrom, h, Bool.false_eq_true, if_false]
          exact hc
  have := key l none
  simpa [dedup] using this

/-! ## `filterMapSpec` -/

theorem filterMapSpec_snoc (f : α → Option β) (l : List α) (a : α) :
    filterMapSpec f (l ++ [a]) = filterMapSpec f l ++
      (match f a with
        | some b => [some b]
        | none => if l = [] then [none] else []) := by
  cases l with
  | nil => cases h : f a <;> simp [filterMapSpec, h]
  | cons b l => cases h : f a <;> simp [filterMapSpec, h]

/-! ## Combinators that pass on every answer -/

/-- A combinator that polls its input exactly once per poll and answers with the image of the
answer. -/
theorem trace_run {poll : Waker → σ → Option (Poll (Option β) × σ)} (src : σ → Src (Option α))
    (log : σ → List α) (g : Poll (Option α) → Poll (Option β)) (Live : σ → Prop)
    (hstep : ∀ w s, Live s → ∃ s', poll w s = some (g ((src s).poll w).1, s') ∧
      src s' = ((src s).poll w).2 ∧ log s' = log s ++ items [((src s).poll w).1] ∧ Live s')
    (ws : List Waker) (s0 : σ) (h0 : Live s0) :
    ∃ outs s h, run poll ws s0 = some (outs, s) ∧ (src s).hist = (src s0).hist ++ h ∧
      outs = h.map (fun p => g p.2) ∧ h.map (·.1) = ws.take outs.length ∧
      log s = log s0 ++ items (h.map (·.2)) ∧ Live s := by
  induction ws generalizing s0 with
  | nil => exact ⟨[], s0, [], rfl, by simp, rfl, rfl, by simp, h0⟩
  | cons w ws ih =>
    obtain ⟨s', h1, h2, h3, h4⟩ := hstep w s0 h0
    have hh := Src.poll_hist w (src s0)
    rw [← h2] at hh
    obtain ⟨outs, s, h, g1, g2, g3, g4, g5, g6⟩ := ih s' h4
    have key : run poll (w :: ws) s0 = some (g ((src s0).poll w).1 :: outs, s) ∨
        run poll (w :: ws) s0 = some ([g ((src s0).poll w).1], s') := by
      cases hr : g ((src s0).poll w).1 with
      | pending => rw [hr] at h1; simp [run, h1, g1]
      | ready x => cases x <;> rw [hr] at h1 <;> simp [run, h1, g1]
    rcases key with key | key
    · refine ⟨_, s, (w, ((src s0).poll w).1) :: h, key, by rw [g2, hh]; simp, by simp [g3],
        by simp [g4], ?_, g6⟩
      have := items_append [((src s0).poll w).1] (h.map (·.2))
      rw [g5, h3, List.map_cons, List.append_assoc, ← this]
      rfl
    · exact ⟨_, s', [(w, ((src s0).poll w).1)], key, hh, rfl, rfl, h3, h4⟩

/-! ## Futures -/

theorem not_completed_mk' {ρ : Type} {script : List (Poll ρ)} : ¬ (Src.mk' script).completed := by
  rintro ⟨w, a, h⟩
  simp [Src.mk'] at h

theorem not_completed.fusedF_snoc {ρ : Type} {t t' : List (Poll ρ)} {h : List (Waker × Poll ρ)}
    (hc : ¬ (Src.mk t h).completed) (x : Waker × Poll ρ) : (Src.mk t' (h ++ [x])).fusedF := by
  intro pre w a post he
  rcases List.eq_nil_or_concat post with rfl | ⟨post', y, rfl⟩
  · rfl
  · simp only at he
    have : h = pre ++ (w, .ready a) :: post' := by
      exact (List.append_inj' (by simpa using he :
        h ++ [x] = (pre ++ (w, .ready a) :: post') ++ [y]) rfl).1
    exact absurd ⟨w, a, by simp [this]⟩ hc

theorem not_completed.fusedF {ρ : Type} {s : Src ρ} (hc : ¬ s.completed) : s.fusedF := by
  intro pre w a post he
  exact absurd ⟨w, a, by simp [he]⟩ hc

/-- One poll of a future that has not completed. -/
theorem Src.pollF_rule {ρ : Type} (w : Waker) (s : Src ρ) (hc : ¬ s.completed)
    (ho : s.output = none) :
    ∃ r s', s.poll w = (r, s') ∧ s'.hist = s.hist ++ [(w, r)] ∧ s'.fusedF ∧
      match r with
      | .ready a => s'.output = some a ∧ s'.completed
      | .pending => ¬ s'.completed ∧ s'.armed w ∧ s'.output = none := by
  have hh := Src.poll_hist w s
  obtain ⟨r, s', e⟩ : ∃ r s', s.poll w = (r, s') := ⟨_, _, rfl⟩
  rw [e] at hh
  simp only at hh
  refine ⟨r, s', e, hh, ?_, ?_⟩
  · obtain ⟨t', h'⟩ := s'
    simp only at hh
    subst hh
    exact not_completed.fusedF_snoc (t := s.todo) hc _
  · cases r with
    | ready a =>
      refine ⟨?_, w, a, by simp [hh]⟩
      unfold Src.output at ho ⊢
      rw [hh, List.findSome?_append, ho]
      rfl
    | pending =>
      refine ⟨?_, by simp [Src.armed, hh], ?_⟩
      · rintro ⟨w', a, h⟩
        rw [hh] at h
        simp at h
        exact hc ⟨w', a, h⟩
      · unfold Src.output at ho ⊢
        rw [hh, List.findSome?_append, ho]
        rfl

/-- Rule for futures. -/
theorem runF_rule {poll : Waker → σ → Option (Poll β × σ)} (Inv : σ → Prop)
    (Post : Waker → Poll β → σ → Prop)
    (hstep : ∀ w s, Inv s → ∃ r s', poll w s = some (r, s') ∧ Post w r s' ∧
      (r = .pending → Inv s'))
    (ws : List Waker) (s0 : σ) (h0 : Inv s0) :
    ∃ outs s, runF poll ws s0 = some (outs, s) ∧
      ((ws = [] ∧ outs = [] ∧ s = s0) ∨
        ∃ k w r, outs = List.replicate k .pending ++ [r] ∧ ws[k]? = some w ∧ Post w r s ∧
          (r = .pending → k + 1 = ws.length)) := by
  induction ws generalizing s0 with
  | nil => exact ⟨[], s0, rfl, .inl ⟨rfl, rfl, rfl⟩⟩
  | cons w ws ih =>
    obtain ⟨r, s', hp, hq, hi⟩ := hstep w s0 h0
    cases r with
    | ready b =>
      exact ⟨[.ready b], s', by simp [runF, hp], .inr ⟨0, w, _, rfl, rfl, hq, by simp⟩⟩
    | pending =>
      obtain ⟨outs, s, h1, h2⟩ := ih s' (hi rfl)
      refine ⟨.pending :: outs, s, by simp [runF, hp, h1], .inr ?_⟩
      rcases h2 with ⟨rfl, rfl, rfl⟩ | ⟨k, w', r, rfl, h3, h4, h5⟩
      · exact ⟨0, w, .pending, rfl, rfl, hq, by simp⟩
      · exact ⟨k + 1, w', r, by simp [List.replicate_succ], by simpa using h3, h4,
          fun h => by simpa using h5 h⟩

/-- The values of a stream at the first poll. -/
theorem fromStream_first (w : Waker) (script : List (Poll (Option α))) :
    ((Inp.mk' script).loop w fromStreamBody none).2.1 = none ↔
      leadingNone script = [none] := by
  unfold Inp.loop
  simp only [Inp.mk', Src.loop, Src.mk', if_true]
  have key : ∀ (t : List (Poll (Option α))) h (v : Option α), v ≠ none →
      (pollLoop w fromStreamBody t h v).2.1 ≠ none := by
    intro t
    induction t with
    | nil => intro h v hv; simpa [pollLoop] using hv
    | cons r t ih =>
      intro h v hv
      obtain (_ | a) | _ := r
      · simpa [pollLoop] using hv
      · simp only [pollLoop, fromStreamBody]; exact ih _ _ (by simp)
      · simpa [pollLoop] using hv
  match script with
  | [] => simp [pollLoop, leadingNone]
  | .pending :: t => simp [pollLoop, leadingNone]
  | .ready none :: t => simp [pollLoop, leadingNone]
  | .ready (some a) :: t =>
    simp only [pollLoop, fromStreamBody, leadingNone, List.nil_eq, reduceCtorEq, iff_false]
    have := key t ([] ++ [(w, .ready (some a))]) (some a) (by simp)
    split <;> rename_i heq <;> rw [heq] at this <;> exact this

end Verif
