import Verif.Props.SameSort

/-!
# C101, continued: `map` and `chain`
-/

namespace Verif

variable {α β γ A B : Type}

/-- An optional input of which all items are changed by `h`. -/
def Inp.over (h : A → B) (i : Inp (Option A)) : Inp (Option B) := ⟨i.src.over h, i.alive⟩

theorem Inp.poll_over (h : A → B) (w : Waker) (i : Inp (Option A)) :
    Inp.poll w (i.over h) = ((i.poll w).1.map (Poll.mapItem h), (i.poll w).2.over h) := by
  obtain ⟨⟨todo, hist⟩, a⟩ := i
  cases a
  · rfl
  · rcases todo with _ | ⟨(_ | d) | _, rs⟩ <;> simp [Inp.poll, Inp.over, Src.over, Src.poll, Poll.mapItem]

/-- The state of `chain` if both inputs are after a `map`. -/
def VChain.over (f : α → β) (s : VChain α) : VChain β :=
  ⟨s.left.over (VecDiff.map f), s.right.over (VecDiff.map f), s.leftLen, s.rightLen, s.pending.map (VecDiff.map f)⟩

/-- What a part of the poll leaves, after a `map`. -/
def VChain.part (f : α → β) (r : Option (VecDiff α) × VChain α) : Option (VecDiff β) × VChain β :=
  (r.1.map (VecDiff.map f), r.2.over f)

theorem removesDesc_over (f : α → β) (off : Nat) : ∀ n : Nat,
    (removesDesc off n : List (VecDiff β)) = (removesDesc off n : List (VecDiff α)).map (VecDiff.map f)
  | 0 => rfl
  | n + 1 => by simp [removesDesc, removesDesc_over f off n, VecDiff.map]

theorem insertsFrom_over (f : α → β) : ∀ (l : List α) (off : Nat),
    insertsFrom off (l.map f) = (insertsFrom off l).map (VecDiff.map f)
  | [], _ => rfl
  | a :: l, off => by simp [insertsFrom, insertsFrom_over f l, VecDiff.map]

theorem processRightChange_over (f : α → β) (c : Option (Poll (Option (VecDiff α)))) (s : VChain α) :
    (s.over f).processRightChange (c.map (Poll.mapItem (VecDiff.map f))) =
      (s.processRightChange c).map (VChain.part f) := by
  obtain ⟨l, r, ll, rl, p⟩ := s
  rcases c with _ | ((_ | d) | _)
  · rfl
  · rfl
  · cases d with
    | replace xs =>
      by_cases h : ll = 0 <;>
        simp [VChain.processRightChange, Poll.mapItem, VecDiff.map, VChain.over, VChain.part, h, Function.comp_def]
    | clear =>
      by_cases h : ll = 0 <;> simp [VChain.processRightChange, Poll.mapItem, VecDiff.map, VChain.over, VChain.part, h]
    | removeAt i =>
      by_cases h : rl = 0 <;> simp [VChain.processRightChange, Poll.mapItem, VecDiff.map, VChain.over, VChain.part, h]
    | pop =>
      by_cases h : rl = 0 <;> simp [VChain.processRightChange, Poll.mapItem, VecDiff.map, VChain.over, VChain.part, h]
    | _ => rfl
  · rfl

/-- The last part of `process_replace` and `process_clear`. -/
theorem processRest_over (f : α → β) (c : Option (Poll (Option (VecDiff α)))) (o : Option (VecDiff α)) (s : VChain α) :
    (match (s.over f).processRightChange (c.map (Poll.mapItem (VecDiff.map f))) with
      | none => none
      | some (some change, s) => some (o.map (VecDiff.map f), { s with pending := s.pending ++ [change] })
      | some (none, s) => some (o.map (VecDiff.map f), s)) =
    (match s.processRightChange c with
      | none => none
      | some (some change, s) => some (o, { s with pending := s.pending ++ [change] })
      | some (none, s) => some (o, s)).map (VChain.part f) := by
  rw [processRightChange_over]
  rcases s.processRightChange c with _ | ⟨_ | d, s'⟩
  · rfl
  · rfl
  · simp [VChain.part, VChain.over]

theorem processReplace_over (f : α → β) (w : Waker) (l : List α) (s : VChain α) :
    (s.over f).processReplace w (l.map f) = (s.processReplace w l).map (VChain.part f) := by
  obtain ⟨li, ri, ll, rl, p⟩ := s
  have key : ∀ (c : Option (Poll (Option (VecDiff α)))) (r' : Inp (Option (VecDiff α))),
      (match (if rl = 0 then (some (VecDiff.replace (l.map f)),
            (⟨li.over (VecDiff.map f), r'.over (VecDiff.map f), (l.map f).length, rl, p.map (VecDiff.map f)⟩ : VChain β))
          else (none, (⟨li.over (VecDiff.map f), r'.over (VecDiff.map f), (l.map f).length, rl,
            p.map (VecDiff.map f) ++ removesDesc 0 ll ++ insertsFrom 0 (l.map f)⟩ : VChain β))) with
        | (output, s) =>
          match s.processRightChange (c.map (Poll.mapItem (VecDiff.map f))) with
          | none => none
          | some (some change, s) => some (output, { s with pending := s.pending ++ [change] })
          | some (none, s) => some (output, s)) =
      (match (if rl = 0 then (some (VecDiff.replace l), (⟨li, r', l.length, rl, p⟩ : VChain α))
          else (none, (⟨li, r', l.length, rl, p ++ removesDesc 0 ll ++ insertsFrom 0 l⟩ : VChain α))) with
        | (output, s) =>
          match s.processRightChange c with
          | none => none
          | some (some change, s) => some (output, { s with pending := s.pending ++ [change] })
          | some (none, s) => some (output, s)).map (VChain.part f) := by
    intro c r'
    by_cases h0 : rl = 0
    · simp only [if_pos h0, List.length_map]
      exact processRest_over f c (some (.replace l)) ⟨li, r', l.length, rl, p⟩
    · simp only [if_neg h0, List.length_map]
      have := processRest_over f c none ⟨li, r', l.length, rl, p ++ removesDesc 0 ll ++ insertsFrom 0 l⟩
      simp only [VChain.over, List.map_append, ← removesDesc_over, ← insertsFrom_over] at this
      exact this
  simp only [VChain.processReplace, VChain.over, Inp.poll_over]
  rcases ri.poll w with ⟨_ | (_ | d) | _, r'⟩
  · exact key none r'
  · exact key (some (.ready none)) r'
  · cases d with
    | replace xs => simp [Poll.mapItem, VecDiff.map, VChain.part, VChain.over]
    | insertAt i a => exact key (some (.ready (some (.insertAt i a)))) r'
    | updateAt i a => exact key (some (.ready (some (.updateAt i a)))) r'
    | push a => exact key (some (.ready (some (.push a)))) r'
    | move i j => exact key (some (.ready (some (.move i j)))) r'
    | removeAt i => exact key (some (.ready (some (.removeAt i)))) r'
    | pop => exact key (some (.ready (some .pop))) r'
    | clear => exact key (some (.ready (some .clear))) r'
  · exact key (some .pending) r'

theorem processClear_over (f : α → β) (w : Waker) (s : VChain α) :
    (s.over f).processClear w = (s.processClear w).map (VChain.part f) := by
  obtain ⟨li, ri, ll, rl, p⟩ := s
  have key : ∀ (c : Option (Poll (Option (VecDiff α)))) (r' : Inp (Option (VecDiff α))),
      (match (if rl = 0 then (some (VecDiff.clear : VecDiff β),
            (⟨li.over (VecDiff.map f), r'.over (VecDiff.map f), 0, rl, p.map (VecDiff.map f)⟩ : VChain β))
          else (none, (⟨li.over (VecDiff.map f), r'.over (VecDiff.map f), 0, rl,
            p.map (VecDiff.map f) ++ removesDesc 0 ll⟩ : VChain β))) with
        | (output, s) =>
          match s.processRightChange (c.map (Poll.mapItem (VecDiff.map f))) with
          | none => none
          | some (some change, s) => some (output, { s with pending := s.pending ++ [change] })
          | some (none, s) => some (output, s)) =
      (match (if rl = 0 then (some (VecDiff.clear : VecDiff α), (⟨li, r', 0, rl, p⟩ : VChain α))
          else (none, (⟨li, r', 0, rl, p ++ removesDesc 0 ll⟩ : VChain α))) with
        | (output, s) =>
          match s.processRightChange c with
          | none => none
          | some (some change, s) => some (output, { s with pending := s.pending ++ [change] })
          | some (none, s) => some (output, s)).map (VChain.part f) := by
    intro c r'
    by_cases h0 : rl = 0
    · simp only [if_pos h0]
      exact processRest_over f c (some .clear) ⟨li, r', 0, rl, p⟩
    · simp only [if_neg h0]
      have := processRest_over f c none ⟨li, r', 0, rl, p ++ removesDesc 0 ll⟩
      simp only [VChain.over, List.map_append, ← removesDesc_over] at this
      exact this
  simp only [VChain.processClear, VChain.over, Inp.poll_over]
  rcases ri.poll w with ⟨_ | (_ | d) | _, r'⟩
  · exact key none r'
  · exact key (some (.ready none)) r'
  · cases d with
    | clear => simp [Poll.mapItem, VecDiff.map, VChain.part, VChain.over]
    | replace xs => exact key (some (.ready (some (.replace xs)))) r'
    | insertAt i a => exact key (some (.ready (some (.insertAt i a)))) r'
    | updateAt i a => exact key (some (.ready (some (.updateAt i a)))) r'
    | push a => exact key (some (.ready (some (.push a)))) r'
    | move i j => exact key (some (.ready (some (.move i j)))) r'
    | removeAt i => exact key (some (.ready (some (.removeAt i)))) r'
    | pop => exact key (some (.ready (some .pop))) r'
  · exact key (some .pending) r'

theorem processLeft_over (f : α → β) (w : Waker) (s : VChain α) :
    (s.over f).processLeft w = (s.processLeft w).map (VChain.part f) := by
  have h : ∀ (d : VecDiff α) (s : VChain α),
      (s.over f).processLeftChange w (d.map f) = (s.processLeftChange w d).map (VChain.part f) := by
    intro d s
    cases d with
    | replace l => exact processReplace_over f w l s
    | clear => exact processClear_over f w s
    | removeAt i =>
      by_cases h : s.leftLen = 0 <;> simp [VChain.processLeftChange, VecDiff.map, VChain.over, VChain.part, h]
    | push a =>
      by_cases h : s.rightLen = 0 <;> simp [VChain.processLeftChange, VecDiff.map, VChain.over, VChain.part, h]
    | pop =>
      by_cases h : s.leftLen = 0 <;> by_cases h' : s.rightLen = 0 <;>
        simp [VChain.processLeftChange, VecDiff.map, VChain.over, VChain.part, h, h']
    | _ => rfl
  obtain ⟨li, ri, ll, rl, p⟩ := s
  simp only [VChain.processLeft, VChain.over, Inp.poll_over]
  rcases li.poll w with ⟨_ | (_ | d) | _, l'⟩
  · rfl
  · rfl
  · exact h d ⟨l', ri, ll, rl, p⟩
  · rfl

theorem processRight_over (f : α → β) (w : Waker) (s : VChain α) :
    (s.over f).processRight w = (s.processRight w).map (VChain.part f) := by
  obtain ⟨li, ri, ll, rl, p⟩ := s
  simp only [VChain.processRight, VChain.over, Inp.poll_over]
  exact processRightChange_over f _ ⟨li, (ri.poll w).2, ll, rl, p⟩

theorem chain_over (f : α → β) (w : Waker) (s : VChain α) :
    VChain.poll w (s.over f) = (VChain.poll w s).map fun r => (r.1.mapItem (VecDiff.map f), r.2.over f) := by
  have hp : ∀ s : VChain α, (s.over f).pending = s.pending.map (VecDiff.map f) := fun _ => rfl
  unfold VChain.poll
  rw [hp, processLeft_over]
  rcases s.pending with _ | ⟨d, ds⟩
  · simp only [List.map_nil]
    rcases s.processLeft w with _ | ⟨_ | d, s1⟩
    · rfl
    · simp only [Option.map_some, VChain.part, Option.map_none, hp, processRight_over]
      rcases s1.pending with _ | ⟨d, ds⟩
      · simp only [List.map_nil]
        rcases s1.processRight w with _ | ⟨_ | d, s2⟩
        · rfl
        · simp only [Option.map_some, VChain.part, Option.map_none, hp]
          rcases s2.pending with _ | ⟨d, ds⟩
          · simp only [List.map_nil]
            by_cases h : (!s2.left.alive && !s2.right.alive) = true
            · rw [if_pos h, if_pos (show (!(s2.over f).left.alive && !(s2.over f).right.alive) = true from h)]
              rfl
            · rw [if_neg h, if_neg (show ¬ (!(s2.over f).left.alive && !(s2.over f).right.alive) = true from h)]
              rfl
          · rfl
        · rfl
      · rfl
    · rfl
  · rfl

/-! ## What the polls of the inputs preserve -/

theorem chain_keeps {P Q : Inp (Option (VecDiff α)) → Prop} {w : Waker}
    (hP : ∀ i, P i → P (i.poll w).2) (hQ : ∀ i, Q i → Q (i.poll w).2)
    {s s' : VChain α} {r : Poll (Option (VecDiff α))} (h : P s.left ∧ Q s.right) (hp : VChain.poll w s = some (r, s')) :
    P s'.left ∧ Q s'.right := by
  have hr : ∀ (c : Option (Poll (Option (VecDiff α)))) (s : VChain α) o s', s.processRightChange c = some (o, s') →
      s'.left = s.left ∧ s'.right = s.right := by
    intro c s o s' h
    rcases c with _ | ((_ | d) | _)
    · cases h; exact ⟨rfl, rfl⟩
    · cases h; exact ⟨rfl, rfl⟩
    · cases d <;> simp only [VChain.processRightChange] at h <;> (try split at h) <;> cases h <;> exact ⟨rfl, rfl⟩
    · cases h; exact ⟨rfl, rfl⟩
  have hrest : ∀ (c : Option (Poll (Option (VecDiff α)))) (o : Option (VecDiff α)) (s : VChain α) o' s',
      (match s.processRightChange c with
      | none => none
      | some (some change, s) => some (o, { s with pending := s.pending ++ [change] })
      | some (none, s) => some (o, s)) = some (o', s') → s'.left = s.left ∧ s'.right = s.right := by
    intro c o s o' s' h
    rcases hx : s.processRightChange c with _ | ⟨d, s1⟩ <;> rw [hx] at h
    · cases h
    · have := hr c s _ _ hx
      cases d <;> cases h <;> exact this
  have hrep : ∀ (l : List α) (s : VChain α) o s', P s.left ∧ Q s.right → s.processReplace w l = some (o, s') →
      P s'.left ∧ Q s'.right := by
    intro l s o s' ⟨h1, h2⟩ h
    have := hQ _ h2
    simp only [VChain.processReplace] at h
    split at h
    · cases h; exact ⟨h1, this⟩
    · by_cases h0 : s.rightLen = 0
      · simp only [if_pos h0] at h
        obtain ⟨e1, e2⟩ := hrest _ _ _ _ _ h
        rw [e1, e2]
        exact ⟨h1, this⟩
      · simp only [if_neg h0] at h
        obtain ⟨e1, e2⟩ := hrest _ _ _ _ _ h
        rw [e1, e2]
        exact ⟨h1, this⟩
  have hclr : ∀ (s : VChain α) o s', P s.left ∧ Q s.right → s.processClear w = some (o, s') →
      P s'.left ∧ Q s'.right := by
    intro s o s' ⟨h1, h2⟩ h
    have := hQ _ h2
    simp only [VChain.processClear] at h
    split at h
    · cases h; exact ⟨h1, this⟩
    · by_cases h0 : s.rightLen = 0
      · simp only [if_pos h0] at h
        obtain ⟨e1, e2⟩ := hrest _ _ _ _ _ h
        rw [e1, e2]
        exact ⟨h1, this⟩
      · simp only [if_neg h0] at h
        obtain ⟨e1, e2⟩ := hrest _ _ _ _ _ h
        rw [e1, e2]
        exact ⟨h1, this⟩
  have hl : ∀ (s : VChain α) o s', P s.left ∧ Q s.right → s.processLeft w = some (o, s') →
      P s'.left ∧ Q s'.right := by
    intro s o s' ⟨h1, h2⟩ h
    have := hP _ h1
    simp only [VChain.processLeft] at h
    split at h
    · rename_i d hd
      cases d with
      | replace l => exact hrep l { s with left := (s.left.poll w).2 } o s' ⟨this, h2⟩ h
      | clear => exact hclr { s with left := (s.left.poll w).2 } o s' ⟨this, h2⟩ h
      | _ =>
        simp only [VChain.processLeftChange] at h
        first
          | (cases h; exact ⟨this, h2⟩)
          | (split at h <;> first
              | (cases h; exact ⟨this, h2⟩)
              | cases h
              | (split at h <;> cases h <;> exact ⟨this, h2⟩))
    all_goals (cases h; exact ⟨this, h2⟩)
  have hrr : ∀ (s : VChain α) o s', P s.left ∧ Q s.right → s.processRight w = some (o, s') →
      P s'.left ∧ Q s'.right := by
    intro s o s' ⟨h1, h2⟩ h
    simp only [VChain.processRight] at h
    obtain ⟨e1, e2⟩ := hr _ _ _ _ h
    rw [e1, e2]
    exact ⟨h1, hQ _ h2⟩
  unfold VChain.poll at hp
  split at hp
  · cases hp; exact h
  · split at hp
    · cases hp
    · rename_i c s1 h1
      cases hp; exact hl _ _ _ h h1
    · rename_i s1 h1
      have h := hl _ _ _ h h1
      split at hp
      · cases hp; exact h
      · split at hp
        · cases hp
        · rename_i c s2 h2
          cases hp; exact hrr _ _ _ h h2
        · rename_i s2 h2
          have h := hrr _ _ _ h h2
          split at hp
          · cases hp; exact h
          · split at hp <;> cases hp <;> exact h

theorem Inp.poll_ok (w : Waker) (i : Inp (Option A)) (h : i.Ok) : (i.poll w).2.Ok := by
  obtain ⟨r, i', h1, h2, -⟩ := Inp.poll_any w i h
  rw [h1]
  exact h2

theorem Inp.poll_plays {x : List (Poll (Option A))} (w : Waker) (i : Inp (Option A)) (h : Plays x i.src) :
    Plays x (i.poll w).2.src := by
  unfold Inp.poll
  split
  · rcases hq : i.src.poll w with ⟨(_ | d) | _, s⟩ <;> exact h.poll hq
  · exact h

namespace Pipe

/-- **C101** (`map` and `chain`).  `a.chain(b).map(f)` is `a.map(f).chain(b.map(f))`: every change comes at the same poll,
for well-formed inputs or not. -/
theorem C101_map_chain (f : β → γ) (p q : Pipe α β) :
    Same (map f (chain p q)) (chain (map f p) (map f q)) := by
  intro src t
  simp only [Pipe.Exec, rel_vMap, Expr.thru_map]
  have ans : ∀ u : Trace β, Trace.answers (List.map (fun q => (q.1, q.2.mapItem (VecDiff.map f))) u) =
      (Trace.answers u).map (Poll.mapItem (VecDiff.map f)) := by
    intro u
    simp [Trace.answers, Function.comp_def]
  have wak : ∀ u : Trace β, Trace.wakers (List.map (fun q => (q.1, q.2.mapItem (VecDiff.map f))) u) = Trace.wakers u := by
    intro u
    simp [Trace.wakers, Function.comp_def]
  have ini : ∀ u v : Trace β, VChain.init ((Trace.answers u).map (Poll.mapItem (VecDiff.map f)))
      ((Trace.answers v).map (Poll.mapItem (VecDiff.map f))) = (VChain.init u.answers v.answers).over f :=
    fun _ _ => rfl
  constructor
  · rintro ⟨v, ⟨u1, u2, hu1, hu2, s, hr, rfl, rfl⟩, rfl, hv⟩
    have hok := run_keeps (I := fun s : VChain β => s.left.Ok ∧ s.right.Ok)
      (fun w m r m' h h' => chain_keeps (Inp.poll_ok w) (Inp.poll_ok w) h h') hr
      ⟨Inp.ok_mk' _, Inp.ok_mk' _⟩
    refine ⟨_, _, ⟨_, hu1, rfl, hok.1.fused⟩, ⟨_, hu2, rfl, hok.2.fused⟩, s.over f, ?_, rfl, rfl⟩
    rw [ans, ans, ans, wak, ini, run_both (chain_over f), hr]
    rfl
  · rintro ⟨_, _, ⟨u1, hu1, rfl, hf1⟩, ⟨u2, hu2, rfl, hf2⟩, s, hr, hh1, hh2⟩
    rw [ans, ans, ini, run_both (chain_over f)] at hr
    rcases hr' : run VChain.poll t.wakers (VChain.init u1.answers u2.answers) with _ | ⟨rs, m⟩
    · rw [hr'] at hr
      cases hr
    · rw [hr'] at hr
      simp only [Option.map_some, Option.some.injEq, Prod.mk.injEq] at hr
      obtain ⟨hr, rfl⟩ := hr
      have hl : rs.length = t.wakers.length := by
        simpa [Trace.answers, Trace.wakers] using congrArg List.length hr
      have z1 : Trace.wakers (t.wakers.zip rs) = t.wakers := List.map_fst_zip (by omega)
      have z2 : Trace.answers (t.wakers.zip rs) = rs := List.map_snd_zip (by omega)
      have hrun : run VChain.poll (Trace.wakers (t.wakers.zip rs)) (VChain.init u1.answers u2.answers) =
          some (Trace.answers (t.wakers.zip rs), m) := by rw [z1, z2]; exact hr'
      have hpl := run_keeps (I := fun s : VChain β => Plays u1.answers s.left.src ∧ Plays u2.answers s.right.src)
        (fun w m r m' h h' => chain_keeps (P := fun i => Plays u1.answers i.src) (Q := fun i => Plays u2.answers i.src)
          (fun i hi => Inp.poll_plays w i hi) (fun i hi => Inp.poll_plays w i hi) h h') hr'
        ⟨plays_mk' _, plays_mk' _⟩
      have l1 : m.left.src.hist.length = u1.length := by
        simpa [VChain.over, Inp.over, Src.over] using congrArg List.length hh1
      have l2 : m.right.src.hist.length = u2.length := by
        simpa [VChain.over, Inp.over, Src.over] using congrArg List.length hh2
      refine ⟨t.wakers.zip rs, ⟨u1, u2, hu1, hu2, m, hrun, ?_, ?_⟩, ?_, fused_of_run hrun⟩
      · exact over_inj (hpl.1.all (by simpa [Trace.answers] using l1)) hh1
      · exact over_inj (hpl.2.all (by simpa [Trace.answers] using l2)) hh2
      · have z : t = t.wakers.zip t.answers := by
          simp [Trace.wakers, Trace.answers, List.zip_map']
        rw [← hr] at z
        exact z.trans (by rw [List.zip_map_right]; rfl)

/-- The right list is filled after the left one has an element. -/
example : (chain (map (· + 1) (.source 0)) (map (· + 1) (.source 1))).Exec (fun i =>
      if i = 0 then [(9, .ready (some (.push 1))), (9, .pending), (9, .ready none)]
      else [(9, .ready (some (.replace [5, 6]))), (9, .pending)])
    [(9, .ready (some (.push 2))), (9, .ready (some (.push 6))), (9, .ready (some (.push 7))), (9, .pending)] :=
  (C101_map_chain (· + 1) (.source 0) (.source 1) _ _).1
    ⟨[(9, .ready (some (.push 1))), (9, .ready (some (.push 5))), (9, .ready (some (.push 6))), (9, .pending)],
      ⟨_, _, rfl, rfl, _, rfl, rfl, rfl⟩, _, rfl, rfl⟩

end Pipe

end Verif
