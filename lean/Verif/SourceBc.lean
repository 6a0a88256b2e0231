import Verif.Flow
import Verif.Props.Broadcaster

/-!
# What a subscriber of a `Broadcaster` has seen when it is at rest
-/

namespace Verif.Bc

variable {α β : Type}

theorem polled_snoc (i : Nat) (tr : List (Ev × Out α β)) (e : Ev) (o : Out α β) :
    polled i (tr ++ [(e, o)]) = polled i tr ++ polled i [(e, o)] := by
  simp [polled]

theorem polled_poll (i : Nat) (w : Waker) (r : Poll (Option β)) (h : List (Step α)) (k : List Waker) :
    polled i [(.poll i w, ⟨some r, h, k⟩)] = [(w, r)] := by
  simp [polled]

theorem polled_not {i : Nat} {e : Ev} (he : ∀ w, e ≠ .poll i w) (o : Out α β) :
    polled i [(e, o)] = [] := by
  obtain ⟨a, h, k⟩ := o
  cases e with
  | poll j w =>
    have : j ≠ i := fun h => he w (by rw [h])
    cases a <;> simp [polled, this]
  | wake => rfl
  | subscribe => rfl
  | dropSub j => rfl

theorem poll_answer {f : Nat → α → β} {m m' : World α} {i : Nat} {w : Waker} {o : Out α β}
    (hs : m.step f (.poll i w) = some (o, m')) : ∃ r, o.answer = some r ∧ o.hist = m'.hist := by
  simp only [World.step] at hs
  split at hs
  · split at hs
    · cases hs
    · cases hs; exact ⟨_, rfl, rfl⟩
  · cases hs

/-- What is known about the polls of subscriber `i` and about the input. -/
structure Known (script : List (Step α)) (f : Nat → α → β) (i : Nat) (tr : List (Ev × Out α β))
    (m : World α) : Prop where
  last : SigTrace.last (polled i tr) = ((values m.hist).take (seen i tr)).getLast?.map (f i)
  start : polled i tr = [] → seen i tr = 0
  polls : polled i tr ≠ [] → m.hist ≠ []
  burst : ∀ x, m.hist.getLast? = some x → ∀ a, x.2 ≠ .ready (some a)
  due : m.hist = [] → (due tr).1 = true
  good : (∀ x, script.head? = some x → ∃ a, x.2 = .ready (some a)) → script ≠ [] →
    polled i tr = [] ∨ ∃ b, (polled i tr).head?.map (·.2) = some (.ready (some b))
  ended : ∀ y, (polled i tr).getLast? = some (y, .ready none) →
    seen i tr = (values m.hist).length ∧ Bc.ended m.hist

theorem step_hist {f : Nat → α → β} {m m' : World α} {e : Ev} {o : Out α β}
    (hs : m.step f e = some (o, m')) : o.hist = m'.hist := by
  cases e with
  | poll i w => exact (poll_answer hs).elim fun _ h => h.2
  | wake => simp only [World.step] at hs; cases hs; rfl
  | subscribe => simp only [World.step] at hs; cases hs; rfl
  | dropSub i =>
    simp only [World.step] at hs
    split at hs
    · cases hs; rfl
    · cases hs

theorem seen_other {i : Nat} {e : Ev} (he : ∀ w, e ≠ .poll i w) (tr : List (Ev × Out α β))
    (o : Out α β) : seen i (tr ++ [(e, o)]) = seen i tr := by
  rw [seen_snoc]
  split
  · rename_i j w _ _ _
    rw [if_neg fun h => he w (by rw [h])]
  · rfl

theorem values_nil_head {h : List (Step α)} {x : Step α} {a : α} (hx : h.head? = some x)
    (ha : x.2 = .ready (some a)) : values h ≠ [] := by
  cases h with
  | nil => cases hx
  | cons y h => cases hx; simp [values, ha, items]

theorem known {script : List (Step α)} {f : Nat → α → β} {es : List Ev} {os : List (Out α β)}
    {m : World α} (hr : runE (World.step f) (World.new script) es = some (os, m)) (i : Nat) :
    Known script f i (es.zip os) m := by
  have := runE_inv (Inv := fun es os m => runE (World.step f) (World.new script) es = some (os, m) ∧
      es.length = os.length ∧ Known script f i (es.zip os) m) ⟨rfl, rfl, ?_⟩ ?_ hr
  · exact this.2.2
  · exact ⟨rfl, fun _ => rfl, fun h => absurd rfl h, by simp [World.new], fun _ => rfl, fun _ _ => .inl rfl,
      by simp [polled]⟩
  · rintro es os m e o m' ⟨hrun, hlen, hk⟩ hs
    refine ⟨runE_snoc_of hrun hs, by simp [hlen], ?_⟩
    rw [List.zip_append hlen]
    have hoh := step_hist hs
    obtain ⟨⟨k, l, hl⟩, -, b, hb, hb1, hb2⟩ := C43_input script f es e os o m m' hrun hs
    have hinv := inv_run hrun
    have hinv' := inv_run (runE_snoc_of hrun hs)
    rw [List.zip_append hlen] at hinv'
    have hbb : b = [] ∨ Burst b := by
      by_cases h : (∃ i w, e = .poll i w) ∧ (Bc.due (es.zip os)).1 = true ∧ ¬ Bc.ended m.hist
      · exact .inr (hb1 h)
      · exact .inl (hb2 h)
    have hlast : ∀ x, m'.hist.getLast? = some x → ∀ a, x.2 ≠ .ready (some a) := by
      intro x hx
      rw [← hoh, hb] at hx
      rcases hbb with rfl | ⟨vs, y, rfl, -, hy⟩
      · rw [List.append_nil] at hx; exact hk.burst x hx
      · rw [← List.append_assoc, List.getLast?_concat] at hx
        cases hx; exact hy
    have hle : seen i (es.zip os) ≤ (values m.hist).length := by
      by_cases h : i < m.made
      · exact (hinv.seen i h).2.1
      · rw [hinv.fresh i (by omega)]; omega
    have htake : (values m'.hist).take (seen i (es.zip os)) = (values m.hist).take (seen i (es.zip os)) := by
      rw [← hoh, hb, values_append, List.take_append_of_le_length hle]
    have hdue : m'.hist = [] → (Bc.due ((es.zip os) ++ [(e, o)])).1 = true := by
      intro h0
      rw [← hoh, hb] at h0
      obtain ⟨h0, h0b⟩ := List.append_eq_nil_iff.1 h0
      have hd := hk.due h0
      rw [due_snoc]
      cases e with
      | poll j w =>
        have : Burst b := hb1 ⟨⟨_, _, rfl⟩, hd, by rw [h0]; simp [Bc.ended]⟩
        obtain ⟨vs, y, h, -⟩ := this
        rw [h0b] at h
        simp at h
      | wake => rfl
      | subscribe => exact hd
      | dropSub j => exact hd
    by_cases he : ∀ w, e ≠ .poll i w
    · have hp : polled i (es.zip os ++ [(e, o)]) = polled i (es.zip os) := by
        rw [polled_snoc, polled_not he, List.append_nil]
      have hse := seen_other he (es.zip os) o
      refine ⟨by rw [List.zip_cons_cons, List.zip_nil_right, hp, hse, htake]; exact hk.last,
        by rw [List.zip_cons_cons, List.zip_nil_right, hp, hse]; exact hk.start, ?_, hlast, hdue,
        by rw [List.zip_cons_cons, List.zip_nil_right, hp]; exact hk.good, ?_⟩
      · rw [List.zip_cons_cons, List.zip_nil_right, hp, ← hoh, hb]
        intro h h'
        exact hk.polls h (List.append_eq_nil_iff.1 h').1
      · rw [List.zip_cons_cons, List.zip_nil_right, hp, hse]
        intro y hy
        obtain ⟨h1, h2⟩ := hk.ended y hy
        have : b = [] := hb2 fun h => h.2.2 h2
        rw [← hoh, hb, this, List.append_nil]
        exact ⟨h1, h2⟩
    · obtain ⟨w, rfl⟩ : ∃ w, e = .poll i w :=
        Classical.byContradiction fun h => he fun w hw => h ⟨w, hw⟩
      obtain ⟨r, hr', -⟩ := poll_answer hs
      obtain ⟨a', h', k'⟩ := o
      cases hr'
      cases hoh
      have hp : polled i (es.zip os ++ [(.poll i w, ⟨some r, m'.hist, k'⟩)]) =
          polled i (es.zip os) ++ [(w, r)] := by
        rw [polled_snoc, polled_poll]
      have hne : m'.hist ≠ [] := by
        intro h0
        have h1 : m.hist = [] := (List.append_eq_nil_iff.1 (hb.symm.trans h0)).1
        have : b = [] := (List.append_eq_nil_iff.1 (hb.symm.trans h0)).2
        have h2 : Burst b := hb1 ⟨⟨_, _, rfl⟩, hk.due h1, by rw [h1]; simp [Bc.ended]⟩
        obtain ⟨vs, y, h, -⟩ := h2
        rw [this] at h
        simp at h
      have hhead : ∀ r', polled i (es.zip os) ≠ [] →
          (polled i (es.zip os) ++ [(w, r')]).head? = (polled i (es.zip os)).head? := by
        intro r' h
        cases hq : polled i (es.zip os) with
        | nil => exact absurd hq h
        | cons q t => rfl
      have hgood : (∀ x, script.head? = some x → ∃ a, x.2 = .ready (some a)) → script ≠ [] →
          polled i (es.zip os) = [] → ∃ b, r = .ready (some b) := by
        intro hx hn h0
        have h1 := hk.start h0
        obtain ⟨k2, hk2⟩ := hinv'.plays
        have hv : values m'.hist ≠ [] := by
          cases hh : m'.hist with
          | nil => exact absurd hh hne
          | cons y l' =>
            cases script with
            | nil => exact absurd rfl hn
            | cons z script =>
              rw [hh] at hk2
              simp only [List.cons_append, List.cons.injEq] at hk2
              obtain ⟨a, ha⟩ := hx z rfl
              exact values_nil_head (x := y) rfl (by rw [hk2.1]; exact ha)
        rcases C43_answer script f es i w os _ m' (runE_snoc_of hrun hs) with ⟨-, a, -, h⟩ | ⟨h, -⟩ | ⟨h, -⟩
        · cases h; exact ⟨_, rfl⟩
        · rw [h1] at h; exact absurd (List.eq_nil_of_length_eq_zero h.symm) hv
        · rw [h1] at h; exact absurd (List.eq_nil_of_length_eq_zero h.symm) hv
      have hse : ∀ n, seen i (es.zip os ++ [(.poll i w, ⟨some r, m'.hist, k'⟩)]) = n ↔
          (match r with | .ready (some _) => (values m'.hist).length | _ => seen i (es.zip os)) = n := by
        intro n
        rw [seen_snoc]
        rcases r with (_ | v) | _ <;> simp
      have hzip : ([Ev.poll i w].zip [(⟨some r, m'.hist, k'⟩ : Out α β)]) =
        [(.poll i w, ⟨some r, m'.hist, k'⟩)] := rfl
      rw [hzip]
      refine ⟨?_, ?_, fun _ => hne, hlast, hdue, ?_, ?_⟩
      · rw [hp, SigTrace.last, List.map_append, items_append]
        rcases C43_answer script f es i w os _ m' (runE_snoc_of hrun hs) with ⟨-, a, ha, h⟩ | ⟨h1, -, h⟩ | ⟨h1, -, h⟩
        · cases h
          rw [(hse _).2 rfl]
          simp only [List.take_length, ha]
          simp [items]
        · cases h
          rw [(hse _).2 rfl]
          simp only [htake, ← hk.last]
          simp [items, SigTrace.last]
        · cases h
          rw [(hse _).2 rfl]
          simp only [htake, ← hk.last]
          simp [items, SigTrace.last]
      · rw [hp]; simp
      · intro hx hn
        right
        rw [hp]
        by_cases h0 : polled i (es.zip os) = []
        · obtain ⟨v, rfl⟩ := hgood hx hn h0
          exact ⟨v, by rw [h0]; rfl⟩
        · rw [hhead r h0]
          exact (hk.good hx hn).resolve_left h0
      · intro y hy
        rw [hp, List.getLast?_concat] at hy
        cases hy
        rw [(hse _).2 rfl]
        rcases C43_answer script f es i w os _ m' (runE_snoc_of hrun hs) with ⟨-, a, ha, h⟩ | ⟨h1, h2, h⟩ | ⟨h1, -, h⟩
        · cases h
        · exact ⟨h1, h2⟩
        · cases h

/-- The last poll of subscriber `i`. -/
theorem last_poll {i : Nat} {tr : List (Ev × Out α β)} {x : Waker} {r : Poll (Option β)}
    (h : (polled i tr).getLast? = some (x, r)) :
    ∃ pre o since, tr = pre ++ (.poll i x, o) :: since ∧ o.answer = some r ∧
      ∀ eo ∈ since, ∀ y, eo.1 = .poll i y → eo.2.answer = none := by
  refine snoc_ind (P := fun tr => (polled i tr).getLast? = some (x, r) →
    ∃ pre o since, tr = pre ++ (.poll i x, o) :: since ∧ o.answer = some r ∧
      ∀ eo ∈ since, ∀ y, eo.1 = .poll i y → eo.2.answer = none) ?_ ?_ tr h
  · intro h; simp [polled] at h
  · rintro tr ⟨e, o⟩ ih h
    by_cases he : ∃ w r', e = .poll i w ∧ o.answer = some r'
    · obtain ⟨w, r', rfl, hr⟩ := he
      obtain ⟨a, hh, k⟩ := o
      cases hr
      rw [polled_snoc, polled_poll, List.getLast?_concat] at h
      cases h
      exact ⟨tr, _, [], rfl, rfl, by simp⟩
    · have hp : polled i [(e, o)] = [] := by
        by_cases h' : ∀ w, e ≠ .poll i w
        · exact polled_not h' o
        · obtain ⟨w, rfl⟩ : ∃ w, e = .poll i w :=
            Classical.byContradiction fun h => h' fun w hw => h ⟨w, hw⟩
          obtain ⟨a, hh, k⟩ := o
          cases a with
          | none => simp [polled]
          | some r' => exact absurd ⟨w, r', rfl, rfl⟩ he
      rw [polled_snoc, hp, List.append_nil] at h
      obtain ⟨pre, o', since, rfl, h1, h2⟩ := ih h
      refine ⟨pre, o', since ++ [(e, o)], by simp, h1, ?_⟩
      intro eo hm y hy
      rcases List.mem_append.1 hm with hm | hm
      · exact h2 eo hm y hy
      · cases List.mem_singleton.1 hm
        cases ha : o.answer with
        | none => rfl
        | some r' => exact absurd ⟨y, r', hy, ha⟩ he

/-- Every poll has an answer. -/
theorem answered {script : List (Step α)} {f : Nat → α → β} {es : List Ev} {os : List (Out α β)}
    {m : World α} (hr : runE (World.step f) (World.new script) es = some (os, m)) :
    ∀ eo ∈ es.zip os, ∀ i y, eo.1 = .poll i y → eo.2.answer ≠ none := by
  have := runE_inv (Inv := fun es (os : List (Out α β)) (_ : World α) => es.length = os.length ∧
      ∀ eo ∈ es.zip os, ∀ i y, eo.1 = Ev.poll i y → eo.2.answer ≠ none) ⟨rfl, by simp⟩ ?_ hr
  · exact this.2
  · rintro es os m e o m' ⟨hlen, hk⟩ hs
    refine ⟨by simp [hlen], ?_⟩
    rw [List.zip_append hlen]
    intro eo hm i y hy
    rcases List.mem_append.1 hm with hm | hm
    · exact hk eo hm i y hy
    · cases List.mem_singleton.1 hm
      cases hy
      obtain ⟨r, h, -⟩ := poll_answer hs
      simp [h]

/-- A subscriber at rest has got the last value of the input, which is at rest too, and has not woken
its waker; unless the waker of the subscriber has been woken. -/
theorem polled_rest {script : List (Step α)} {f : Nat → α → β} {es : List Ev} {os : List (Out α β)}
    {m : World α} (hq : ∀ s ∈ script, s.1 = false)
    (hr : runE (World.step f) (World.new script) es = some (os, m)) {i : Nat}
    (hk : Kept i (es.zip os)) {o : Option Waker} (ho : Rest o (polled i (es.zip os))) :
    (∃ x, o = some x ∧ WokenSince i (es.zip os) x) ∨
    SigTrace.last (polled i (es.zip os)) = (values m.hist).getLast?.map (f i) ∧
      ((∃ x, o = some x ∧ m.hist.getLast?.map (·.2) = some .pending ∧ (due (es.zip os)).1 = false) ∨
        m.hist.getLast?.map (·.2) = some (.ready none)) := by
  have hK := known hr i
  have hinv := inv_run hr
  have hend : ended m.hist → m.hist.getLast?.map (·.2) = some (.ready none) := by
    intro h
    obtain ⟨x, hx, hx'⟩ := List.mem_map.1 h
    obtain ⟨pre, post, he⟩ := List.append_of_mem hx
    have := hinv.fused pre x post he hx'
    rw [he, this, List.getLast?_concat]
    simp [hx']
  have htake : seen i (es.zip os) = (values m.hist).length →
      SigTrace.last (polled i (es.zip os)) = (values m.hist).getLast?.map (f i) := by
    intro h
    rw [hK.last, h, List.take_length]
  rcases ho with ⟨x, rfl, hx⟩ | ⟨y, hy⟩
  · have hnd : ∀ eo ∈ es.zip os, eo.1 ≠ .dropSub i := hk.elim id fun ⟨y, h⟩ => by rw [hx] at h; cases h
    obtain ⟨pre, o', since, he, h1, h2⟩ := last_poll hx
    have hans := answered hr
    have hmem : ∀ eo ∈ since, eo ∈ es.zip os := fun eo hm => by rw [he]; simp [hm]
    have hnp : ∀ eo ∈ since, ∀ y, eo.1 ≠ .poll i y := fun eo hm y hy =>
      hans eo (hmem eo hm) i y hy (h2 eo hm y hy)
    by_cases hw : ∃ eo ∈ since, x ∈ eo.2.woken
    · exact .inl ⟨x, rfl, pre, o', since, he, hnp, hw⟩
    · right
      have hW : Waits i x (es.zip os) := by
        refine ⟨since, ⟨pre, o', he, h1, fun eo hm hc => ?_⟩, fun eo hm h => hw ⟨eo, hm, h⟩⟩
        obtain ⟨e, o''⟩ := eo
        cases e with
        | poll j y => cases hc; exact hnp _ hm y rfl
        | wake => exact hc
        | subscribe => exact hc
        | dropSub j => cases hc; exact hnd _ (hmem _ hm) rfl
      obtain ⟨k1, k2, k3⟩ := C63_quiet_input_partial script f hq es os m i x hr hW
      refine ⟨htake k1, .inl ⟨x, rfl, ?_, k3⟩⟩
      cases hl : m.hist.getLast? with
      | none =>
        rw [hK.due (List.getLast?_eq_none_iff.1 hl)] at k3
        cases k3
      | some q =>
        have hb := hK.burst q hl
        obtain ⟨b, r⟩ := q
        rcases r with (_ | v) | _
        · exact absurd (List.mem_map.2 ⟨_, List.mem_of_getLast? hl, rfl⟩) k2
        · exact absurd rfl (hb v)
        · rfl
  · obtain ⟨k1, k2⟩ := hK.ended y hy
    exact .inr ⟨htake k1, .inr (hend k2)⟩

end Verif.Bc
