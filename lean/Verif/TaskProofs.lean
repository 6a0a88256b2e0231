import Verif.Tasks
import Verif.NetTotal
import Verif.Props.ForEach

/-!
# Tasks that keep `Mutable`s up to date (C88): the invariant
-/

namespace Verif.Net

variable {α β γ : Type}

/-! ## What other networks see -/

/-- The logs of wakers only grow. -/
def WokenGrow (W W' : Env α) : Prop := ∀ m, ∃ l, (W' m).woken = (W m).woken ++ l

theorem WokenGrow.refl (W : Env α) : WokenGrow W W := fun _ => ⟨[], by simp⟩

theorem WokenGrow.trans {W W1 W2 : Env α} (h : WokenGrow W W1) (h' : WokenGrow W1 W2) : WokenGrow W W2 := fun m =>
  let ⟨l, e⟩ := h m; let ⟨l', e'⟩ := h' m; ⟨l ++ l', by rw [e', e, List.append_assoc]⟩

theorem Woken.left {W W1 W2 : Env α} {w : Waker} (h : Woken W W1 w) (h' : WokenGrow W1 W2) : Woken W W2 w := by
  obtain ⟨m, l, e, hw⟩ := h
  obtain ⟨l', e'⟩ := h' m
  exact ⟨m, l ++ l', by rw [e', e, List.append_assoc], List.mem_append_left _ hw⟩

theorem Woken.right {W W1 W2 : Env α} {w : Waker} (h : WokenGrow W W1) (h' : Woken W1 W2 w) : Woken W W2 w := by
  obtain ⟨m, l, e, hw⟩ := h'
  obtain ⟨l', e'⟩ := h m
  exact ⟨m, l' ++ l, by rw [e, e', List.append_assoc], List.mem_append_right _ hw⟩

/-- What is new stays new until it is polled. -/
theorem clean_later {p : Net α β} {W W' : Env α} {s : p.St} (hl : Later (p.Owns s) W W')
    (h : Clean p W' s) : Clean p W s := by
  induction p with
  | source m => exact (hl.clean m _ ⟨rfl, rfl⟩ h).1
  | always b => exact h
  | map f p ih => exact ih hl h
  | dedupe p ih => exact ih hl h
  | eq b p ih => exact ih hl h
  | neq b p ih => exact ih hl h
  | mapRef ps f ih => exact fun i => ih i (hl.mono fun m k hk => ⟨i, hk⟩) (h i)
  | switch g p ihg ih =>
    obtain ⟨fl, so, si⟩ := s
    obtain ⟨h1, t, si', h2, h3⟩ := h
    simp only at h2
    subst h2
    exact ⟨ih (hl.mono fun m k hk => Or.inl hk) h1, t, si', rfl,
      ihg t (hl.mono fun m k hk => Or.inr ⟨t, si', rfl, hk⟩) h3⟩

/-- What a network that is not polled sees from `W` to `W'`. -/
structure Sees (q : Net α γ) (s : q.St) (W W' : Env α) : Prop where
  grow : WokenGrow W W'
  inv : ∀ last, Inv q W s last → Inv q W' s last
  armed : ∀ w, Armed w q W s → ¬ Dead q W s → Woken W W' w ∨ (Armed w q W' s ∧ ¬ Dead q W' s)
  dead : Dead q W s → Dead q W' s
  clean : Clean q W' s → Clean q W s

theorem Sees.refl (q : Net α γ) (s : q.St) (W : Env α) : Sees q s W W :=
  ⟨WokenGrow.refl W, fun _ h => h, fun _ h h' => .inr ⟨h, h'⟩, fun h => h, fun h => h⟩

theorem Sees.trans {q : Net α γ} {s : q.St} {W W1 W2 : Env α} (h : Sees q s W W1) (h' : Sees q s W1 W2) :
    Sees q s W W2 := by
  refine ⟨h.grow.trans h'.grow, fun l hl => h'.inv l (h.inv l hl), fun w ha hd => ?_,
    fun hd => h'.dead (h.dead hd), fun hc => h.clean (h'.clean hc)⟩
  rcases h.armed w ha hd with k | ⟨k1, k2⟩
  · exact .inl (k.left h'.grow)
  · exact (h'.armed w k1 k2).imp (Woken.right h.grow) id

theorem grow_env {W : Env α} {m : Nat} {e : Mut.Ev α} {o : Mut.Obs α} {x : Mut.World α} (hok : Ok W)
    (hs : (W m).step e = some (o, x)) : WokenGrow W (W.put m x) := by
  intro k
  by_cases hk : k = m
  · subst hk
    rw [put_same]
    exact ⟨_, ((hok k).choose_spec.step hs).2.2⟩
  · rw [put_other W x hk]; exact ⟨[], by simp⟩

theorem sees_env {q : Net α γ} {s : q.St} {W : Env α} {last : Option γ} {m : Nat} {e : Mut.Ev α}
    {o : Mut.Obs α} {x : Mut.World α} (hi : Inv q W s last) (hok : Ok W) (hf : Foreign q s m e)
    (hs : (W m).step e = some (o, x)) : Sees q s W (W.put m x) := by
  have hl := later_env hi hok hf hs
  refine ⟨grow_env hok hs, fun _ h => inv_later hl h, fun w ha hd => ?_, dead_later hl, clean_later hl⟩
  rcases armed_env ha hi hok hf hs with ⟨l, hl, hw⟩ | hk
  · exact .inl ⟨m, l, by rw [put_same]; exact hl, hw⟩
  · exact .inr ⟨armed_kin hk ha, fun h => hd (dead_kin hk h)⟩

theorem sees_frame {q : Net α γ} {s : q.St} {W W' : Env α} {last : Option γ} {O : Nat → Nat → Prop}
    (hi : Inv q W s last) (hf : Frame O W W') (ho : ∀ m i, q.Owns s m i → ¬ O m i) : Sees q s W W' := by
  have hS := hf.same (fun m i h => (own_lt hi h).1) ho
  have hk : Kin (q.Owns s) W W' := fun m i h => ⟨hS.cell m i h, by rw [hS.senders]⟩
  exact ⟨fun m => ⟨[], by rw [hf.woken]; simp⟩, fun _ h => inv_later hS.later h,
    fun w ha hd => .inr ⟨armed_kin hk ha, fun h => hd (dead_kin hk h)⟩, dead_later hS.later, clean_later hS.later⟩

/-! ## A poll of a task -/

theorem write_foreign {t : Task α} {q : Net α γ} {s : q.St} {m : Nat} (a : α) : Foreign q s m (t.write a) := by
  unfold Task.write
  split
  · exact ⟨fun i w h => (by cases h), fun i h => (by cases h)⟩
  · exact ⟨fun i w h => (by cases h), fun i h => (by cases h)⟩

theorem drop_foreign {q : Net α γ} {s : q.St} {m : Nat} : Foreign q s m (.drop : Mut.Ev α) :=
  ⟨fun i w h => (by cases h), fun i h => (by cases h)⟩

theorem write_handles {t : Task α} (a : α) (k : Nat) : (t.write a).newHandles k = k := by
  unfold Task.write; split <;> rfl

/-- The value after the callback. -/
theorem write_value {t : Task α} (ht : t.Lawful) (a b : α) : (t.write a).newValue b = a := by
  unfold Task.write
  split
  · rfl
  · rename_i f hf
    simp only [Mut.Ev.newValue]
    split
    · rfl
    · rename_i h
      exact ht f hf b a (by simpa using h)

theorem cells_env {W : Env α} {m : Nat} {e : Mut.Ev α} {o : Mut.Obs α} {x : Mut.World α} (hok : Ok W)
    (hs : (W m).step e = some (o, x)) (k : Nat) : (W k).cells ≤ (W.put m x k).cells := by
  by_cases hk : k = m
  · subst hk
    rw [put_same]
    exact (step_world (hok k).choose_spec hs).1
  · rw [put_other W x hk]; exact Nat.le_refl _

/-- What the polls of the signal and the calls of the callback do. -/
structure Fed (t : Task α) (w : Waker) (W : Env α) (s : t.net.St) (last : Option α)
    (l : List (Poll (Option α))) (W' : Env α) (s' : t.net.St) : Prop where
  ok : Ok W'
  inv : Inv t.net W' s' (l.foldl upd last)
  own : ∀ m i, t.net.Owns s' m i → t.net.Owns s m i ∨ (W m).cells ≤ i
  cells : ∀ m, (W m).cells ≤ (W' m).cells
  grow : WokenGrow W W'
  handles : ∀ m, (W' m).handles = (W m).handles
  value : ∀ m, m ≠ t.target → (W' m).value = (W m).value
  mine : t.Lawful → (W' t.target).value = ((items l).getLast?).getD (W t.target).value
  sees : ∀ {γ : Type} (q : Net α γ) (sq : q.St) (lq : Option γ), Inv q W sq lq →
    (∀ m i, q.Owns sq m i → ¬ t.net.Owns s m i) → Sees q sq W W'
  pend : l.getLast? = some .pending → Armed w t.net W' s' ∧ ¬ Dead t.net W' s'
  ended : l.getLast? = some (.ready none) → Dead t.net W' s'

theorem handles_frame {O : Nat → Nat → Prop} {W W' : Env α} (hok : Ok W) (hf : Frame O W W') (m : Nat) :
    (W' m).handles = (W m).handles := by
  obtain ⟨S, hS⟩ := hok m
  obtain ⟨S', hS'⟩ := hf.ok m
  rw [hS.handles, hS'.handles, ← hS.senders, ← hS'.senders]
  exact hf.senders m

theorem feeds_fed {t : Task α} {w : Waker} {l : List (Poll (Option α))} {W W' : Env α} {s s' : t.net.St}
    {last : Option α} (hi : Inv t.net W s last) (hok : Ok W) (h : t.Feeds w W s l W' s') :
    Fed t w W s last l W' s' := by
  induction l generalizing W s last with
  | nil =>
    obtain ⟨rfl, rfl⟩ := h
    exact ⟨hok, hi, fun _ _ h => .inl h, fun _ => Nat.le_refl _, WokenGrow.refl _, fun _ => rfl, fun _ _ => rfl,
      fun _ => rfl, fun q sq lq _ _ => Sees.refl _ _ _, by simp, by simp⟩
  | cons r l ih =>
    -- an answer that is no value
    have quiet : ∀ (_ : ∀ a, r ≠ .ready (some a)) (W1 : Env α) (s1 : t.net.St),
        t.net.Polls w W s r W1 s1 → t.Feeds w W1 s1 l W' s' → Fed t w W s last (r :: l) W' s' := by
      intro hr W1 s1 h1 h2
      have P := polls_post hi hok h1
      have Q := ih P.inv P.frame.ok h2
      refine ⟨Q.ok, Q.inv, fun m i hm => ?_, fun m => Nat.le_trans (P.frame.cells m) (Q.cells m), ?_, fun m => ?_,
        fun m hm => ?_, fun hL => ?_, fun q sq lq hq ho => ?_, fun hp => ?_, fun hp => ?_⟩
      · rcases Q.own m i hm with h | h
        · exact P.own m i h
        · exact .inr (Nat.le_trans (P.frame.cells m) h)
      · exact WokenGrow.trans (fun m => ⟨[], by rw [P.frame.woken]; simp⟩) Q.grow
      · rw [Q.handles, handles_frame hok P.frame]
      · rw [Q.value m hm, P.frame.value]
      · rw [Q.mine hL, P.frame.value, items_not_some hr]
      · have h1 := sees_frame hq P.frame ho
        refine h1.trans (Q.sees q sq lq (h1.inv _ hq) fun m i hm hm' => ?_)
        rcases P.own m i hm' with h | h
        · exact ho m i hm h
        · have := (own_lt hq hm).1; omega
      · cases l with
        | nil =>
          obtain ⟨rfl, rfl⟩ := h2
          simp only [List.getLast?_singleton, Option.some.injEq] at hp
          exact ⟨P.pend hp, P.alive hp⟩
        | cons b l => exact Q.pend (by rw [List.getLast?_cons_cons] at hp; exact hp)
      · cases l with
        | nil =>
          obtain ⟨rfl, rfl⟩ := h2
          simp only [List.getLast?_singleton, Option.some.injEq] at hp
          exact P.ended hp
        | cons b l => exact Q.ended (by rw [List.getLast?_cons_cons] at hp; exact hp)
    match r with
    | .pending => obtain ⟨W1, s1, h1, h2⟩ := h; exact quiet (by simp) W1 s1 h1 h2
    | .ready none => obtain ⟨W1, s1, h1, h2⟩ := h; exact quiet (by simp) W1 s1 h1 h2
    | .ready (some a) =>
      clear quiet
      obtain ⟨W1, s1, o, x, h1, hw, h2⟩ := h
      have P := polls_post hi hok h1
      have S1 := sees_env P.inv P.frame.ok (write_foreign a) hw
      have ok2 := ok_env P.frame.ok hw
      have Q := ih (S1.inv _ P.inv) ok2 h2
      obtain ⟨S, hS⟩ := P.frame.ok t.target
      obtain ⟨k1, -, -⟩ := hS.step hw
      refine ⟨Q.ok, Q.inv, fun m i hm => ?_, fun m => Nat.le_trans (P.frame.cells m)
        (Nat.le_trans (cells_env P.frame.ok hw m) (Q.cells m)), ?_, fun m => ?_, fun m hm => ?_,
        fun hL => ?_, fun q sq lq hq ho => ?_, fun hp => ?_, fun hp => ?_⟩
      · rcases Q.own m i hm with h | h
        · exact P.own m i h
        · exact .inr (Nat.le_trans (P.frame.cells m) (Nat.le_trans (cells_env P.frame.ok hw m) h))
      · exact WokenGrow.trans (fun m => ⟨[], by rw [P.frame.woken]; simp⟩) (S1.grow.trans Q.grow)
      · rw [Q.handles, ← handles_frame hok P.frame]
        by_cases hm : m = t.target
        · subst hm
          rw [put_same, k1.handles, hS.handles]
          exact write_handles a _
        · rw [put_other _ _ hm]
      · rw [Q.value m hm, put_other _ _ hm, P.frame.value]
      · rw [Q.mine hL, put_same, k1.value]
        have : (S.next (t.write a)).value = a := write_value hL a _
        rw [this]
        simp [items, List.getLast?_cons]
      · have h1 := sees_frame hq P.frame ho
        have h2 := sees_env (h1.inv _ hq) P.frame.ok (write_foreign a) hw
        refine (h1.trans h2).trans (Q.sees q sq lq (h2.inv _ (h1.inv _ hq)) fun m i hm hm' => ?_)
        rcases P.own m i hm' with h | h
        · exact ho m i hm h
        · have := (own_lt hq hm).1; omega
      · cases l with
        | nil => simp at hp
        | cons b l => exact Q.pend (by rw [List.getLast?_cons_cons] at hp; exact hp)
      · cases l with
        | nil => simp at hp
        | cons b l => exact Q.ended (by rw [List.getLast?_cons_cons] at hp; exact hp)

/-- The last answer of the signal in a poll of `for_each` that gives this. -/
def lastOf : Poll Unit → Poll (Option α)
  | .pending => .pending
  | .ready () => .ready none

/-- What `for_each` takes. -/
theorem each_took {l : List (Poll (Option α))} {f f' : SForEach Unit α} {w : Waker} {d : Poll Unit}
    (h0 : f.future = none)
    (h : SForEach.poll (fun _ _ => ([.ready ()], ())) w ⟨give l f.stream, f.future, f.st, f.log⟩ = some (d, f'))
    (ht : Took l f.stream f'.stream) :
    f'.future = none ∧ feCalls f'.log = feCalls f.log ++ items l ∧
      l.getLast? = some (lastOf d) := by
  obtain ⟨⟨todo, hist⟩, fu, ⟨⟩, log⟩ := f
  simp only at h0
  subst h0
  simp only [SForEach.poll, give, Option.some.injEq] at h
  simp only [Took] at ht
  induction l generalizing hist log with
  | nil =>
    simp only [SForEach.loop, Prod.mk.injEq] at h
    obtain ⟨rfl, rfl⟩ := h
    simp at ht
  | cons r l ih =>
    match r with
    | .pending =>
      simp only [SForEach.loop, Prod.mk.injEq] at h
      obtain ⟨rfl, rfl⟩ := h
      have : l = [] := by simpa using ht
      subst this
      simp [feCalls_append, feCalls, items, lastOf]
    | .ready none =>
      simp only [SForEach.loop, Prod.mk.injEq] at h
      obtain ⟨rfl, rfl⟩ := h
      have : l = [] := by simpa using ht
      subst this
      simp [feCalls_append, feCalls, items, lastOf]
    | .ready (some a) =>
      simp only [SForEach.loop, Src.mk', Src.poll] at h
      obtain ⟨k1, k2, k3⟩ := ih (log ++ [FeEv.input w (Poll.ready (some a))] ++ [FeEv.call a] ++ [FeEv.work w (Poll.ready ())])
        (hist ++ [(w, Poll.ready (some a))]) (by simp only [List.length_append, List.length_cons, List.length_nil] at ht ⊢; omega) h
      refine ⟨k1, ?_, ?_⟩
      · rw [k2]; simp [feCalls_append, feCalls, items, lastOf]
      · cases l with
        | nil => simp at k3
        | cons b l => rw [List.getLast?_cons_cons]; exact k3

theorem foldl_upd (l : List (Poll (Option α))) (last : Option α) :
    l.foldl upd last = ((items l).getLast?).or last := by
  induction l generalizing last with
  | nil => rfl
  | cons r l ih =>
    rw [List.foldl_cons, ih]
    match r with
    | .pending => rfl
    | .ready none => rfl
    | .ready (some a) => simp [upd, items, List.getLast?_cons]

/-- What a poll of a task does. -/
structure TaskPost (t : Task α) (w : Waker) (W : Env α) (s : t.St) (d : Poll Unit) (W' : Env α) (s' : t.St) :
    Prop where
  ok : Ok W'
  idle : s'.each.future = none
  inv : Inv t.net W' s'.signal (feCalls s'.each.log).getLast?
  own : ∀ m i, t.net.Owns s'.signal m i → t.net.Owns s.signal m i ∨ (W m).cells ≤ i
  grow : WokenGrow W W'
  handles : ∀ m, (W' m).handles = if d = .ready () ∧ m = t.target then (W m).handles - 1 else (W m).handles
  value : ∀ m, m ≠ t.target → (W' m).value = (W m).value
  mine : t.Lawful → ((feCalls s'.each.log).getLast? = (feCalls s.each.log).getLast? ∧
    (W' t.target).value = (W t.target).value) ∨ (feCalls s'.each.log).getLast? = some (W' t.target).value
  sees : ∀ {γ : Type} (q : Net α γ) (sq : q.St) (lq : Option γ), Inv q W sq lq →
    (∀ m i, q.Owns sq m i → ¬ t.net.Owns s.signal m i) → Sees q sq W W'
  pend : d = .pending → Armed w t.net W' s'.signal ∧ ¬ Dead t.net W' s'.signal
  ended : d = .ready () → Dead t.net W' s'.signal

theorem task_post {t : Task α} {w : Waker} {W W' : Env α} {s s' : t.St} {d : Poll Unit}
    (hi : Inv t.net W s.signal (feCalls s.each.log).getLast?) (hok : Ok W) (h0 : s.each.future = none)
    (h : t.Polls w W s d W' s') : TaskPost t w W s d W' s' := by
  obtain ⟨l, W1, h1, h2, h3, h4, h5⟩ := h
  have F := feeds_fed hi hok h1
  obtain ⟨k1, k2, k3⟩ := each_took h0 h2 h3
  have hl : (feCalls s'.each.log).getLast? = l.foldl upd (feCalls s.each.log).getLast? := by
    rw [k2, foldl_upd, List.getLast?_append]
  have hm : t.Lawful → ((feCalls s'.each.log).getLast? = (feCalls s.each.log).getLast? ∧
      (W1 t.target).value = (W t.target).value) ∨
      (feCalls s'.each.log).getLast? = some (W1 t.target).value := by
    intro hL
    rw [hl, foldl_upd, F.mine hL]
    cases (items l).getLast? with
    | none => left; exact ⟨rfl, rfl⟩
    | some a => right; rfl
  match d with
  | .pending =>
    have := h4 rfl
    subst this
    exact ⟨F.ok, k1, hl ▸ F.inv, F.own, F.grow, fun m => by simp [F.handles], F.value, hm, F.sees,
      fun _ => F.pend k3, by simp⟩
  | .ready () =>
    obtain ⟨o, x, hx, rfl⟩ := h5 rfl
    have D : ∀ {γ : Type} (q : Net α γ) (sq : q.St) (lq : Option γ), Inv q W1 sq lq →
        Sees q sq W1 (W1.put t.target x) := fun q sq lq hq => sees_env hq F.ok drop_foreign hx
    have D0 := D _ _ _ F.inv
    obtain ⟨S, hS⟩ := F.ok t.target
    obtain ⟨j1, -, -⟩ := hS.step hx
    have hv : ((W1.put t.target x) t.target).value = (W1 t.target).value := by
      rw [put_same, j1.value, hS.value]; rfl
    refine ⟨ok_env F.ok hx, k1, hl ▸ D0.inv _ F.inv, F.own, F.grow.trans D0.grow, fun m => ?_, fun m hm => ?_,
      fun hL => by rw [hv]; exact hm hL,
      fun q sq lq hq ho => (F.sees q sq lq hq ho).trans (D q sq lq ((F.sees q sq lq hq ho).inv _ hq)), by simp,
      fun _ => D0.dead (F.ended k3)⟩
    · by_cases hm : m = t.target
      · subst hm
        rw [put_same, j1.handles, ← F.handles, hS.handles]
        simp [Mut.Spec.next, Mut.Ev.newHandles]
      · rw [put_other _ _ hm, F.handles]; simp [hm]
    · rw [put_other _ _ hm, F.value m hm]

/-! ## The system -/

variable {n : Nat} {T : Fin n → Task α}

/-- The state between the steps. -/
structure SysInv (S : Sys T) : Prop where
  ok : Ok S.env
  idle : ∀ i, (S.st i).each.future = none
  inv : ∀ i, Inv (T i).net S.env (S.st i).signal (S.lastCall i)
  apart : ∀ i j m k, i ≠ j → (T i).net.Owns (S.st i).signal m k → ¬ (T j).net.Owns (S.st j).signal m k
  armed : ∀ i, S.done i = false → ¬ S.ready i →
    Armed i (T i).net S.env (S.st i).signal ∧ ¬ Dead (T i).net S.env (S.st i).signal
  dead : ∀ i, S.done i = true → Dead (T i).net S.env (S.st i).signal
  handles : ∀ m, holds T S.done m ≤ (S.env m).handles

theorem countP_update {β : Type} [DecidableEq β] {l : List β} {p q : β → Bool} {b : β} (hb : l.Nodup)
    (h : ∀ a ∈ l, a ≠ b → q a = p a) : l.countP q + (if b ∈ l ∧ p b = true then 1 else 0) =
      l.countP p + (if b ∈ l ∧ q b = true then 1 else 0) := by
  induction l with
  | nil => simp
  | cons a l ih =>
    have hn := List.nodup_cons.1 hb
    have := ih hn.2 fun c hc hne => h c (List.mem_cons_of_mem _ hc) hne
    simp only [List.countP_cons, List.mem_cons]
    by_cases hab : a = b
    · subst hab
      simp only [hn.1, false_and, if_false] at this
      simp only [true_or, true_and]
      omega
    · have e := h a (by simp) hab
      have hba : ¬ b = a := fun h => hab h.symm
      simp only [hba, false_or, e]
      omega

theorem holds_done {T : Fin n → Task α} {d d' : Fin n → Bool} {i : Fin n} (h : ∀ j, j ≠ i → d' j = d j)
    (h1 : d i = false) (h2 : d' i = true) (m : Nat) :
    holds T d' m + (if m = (T i).target then 1 else 0) = holds T d m := by
  have := countP_update (l := List.finRange n) (b := i) (p := fun j => !d j && (T j).target == m)
    (q := fun j => !d' j && (T j).target == m) (List.nodup_finRange n)
    (fun j _ hj => by simp only [h j hj])
  simp only [List.mem_finRange, true_and, h1, h2, Bool.not_true, Bool.false_and, Bool.not_false, Bool.true_and,
    beq_iff_eq] at this
  unfold holds
  simp only [eq_comm (a := m)]
  simpa using this

theorem sysInv_step {S S' : Sys T} {a : TaskAct n α} (h : SysInv S) (hs : S.Step S' a) : SysInv S' := by
  cases a with
  | env m e =>
    obtain ⟨hf, ⟨o, x, h1, h2, h3⟩, h4, h5, h6⟩ := hs
    have hsee : ∀ i, Sees (T i).net (S.st i).signal S.env S'.env := fun i => by
      rw [h3]; exact sees_env (h.inv i) h.ok (hf i) h1
    refine ⟨by rw [h3]; exact ok_env h.ok h1, fun i => by rw [h4]; exact h.idle i, fun i => ?_, ?_, fun i hd hr => ?_,
      fun i hd => ?_, fun k => ?_⟩
    · unfold Sys.lastCall; rw [h4]; exact (hsee i).inv _ (h.inv i)
    · rw [h4]; exact h.apart
    · rw [h5] at hd
      rw [h6 i] at hr
      obtain ⟨k1, k2⟩ := h.armed i hd fun hh => hr (.inl hh)
      rw [h4]
      exact ((hsee i).armed i k1 k2).resolve_left fun hh => hr (.inr hh)
    · rw [h5] at hd
      rw [h4]
      exact (hsee i).dead (h.dead i hd)
    · rw [h5, h3]
      by_cases hk : k = m
      · subst hk; rw [put_same]; exact h2
      · rw [put_other _ _ hk]; exact h.handles k
  | poll i d =>
    obtain ⟨h1, h2, h3, h4, h5⟩ := hs
    have P := task_post (h.inv i) h.ok (h.idle i) h2
    have hsee : ∀ j, j ≠ i → Sees (T j).net (S.st j).signal S.env S'.env := fun j hj =>
      P.sees _ _ _ (h.inv j) fun m k hk => h.apart j i m k hj hk
    refine ⟨P.ok, fun j => ?_, fun j => ?_, fun j k m c hjk hj hk => ?_, fun j hd hr => ?_, fun j hd => ?_,
      fun m => ?_⟩
    · by_cases hj : j = i
      · subst hj; exact P.idle
      · rw [(h3 j hj).1]; exact h.idle j
    · unfold Sys.lastCall
      by_cases hj : j = i
      · subst hj; exact P.inv
      · rw [(h3 j hj).1]; exact (hsee j hj).inv _ (h.inv j)
    · by_cases hji : j = i
      · subst hji
        rw [(h3 k (Ne.symm hjk)).1] at hk
        rcases P.own m c hj with hj | hj
        · exact h.apart j k m c hjk hj hk
        · have := (own_lt (h.inv k) hk).1; omega
      · rw [(h3 j hji).1] at hj
        by_cases hki : k = i
        · subst hki
          rcases P.own m c hk with hk | hk
          · exact h.apart j k m c hjk hj hk
          · have := (own_lt (h.inv j) hj).1; omega
        · rw [(h3 k hki).1] at hk
          exact h.apart j k m c hjk hj hk
    · by_cases hj : j = i
      · subst hj
        refine P.pend ?_
        match d with
        | .pending => rfl
        | .ready () => rw [h4.2 rfl] at hd; cases hd
      · rw [(h3 j hj).2] at hd
        rw [h5 j] at hr
        obtain ⟨k1, k2⟩ := h.armed j hd fun hh => hr (.inl ⟨hj, hh⟩)
        rw [(h3 j hj).1]
        exact ((hsee j hj).armed j k1 k2).resolve_left fun hh => hr (.inr hh)
    · by_cases hj : j = i
      · subst hj; exact P.ended (h4.1 hd)
      · rw [(h3 j hj).2] at hd
        rw [(h3 j hj).1]
        exact (hsee j hj).dead (h.dead j hd)
    · rw [P.handles m]
      have hh := h.handles m
      cases hd : S'.done i with
      | true =>
        have e := holds_done (T := T) (fun j hj => (h3 j hj).2) h1 hd m
        rw [h4.1 hd]
        simp only [true_and]
        split at e <;> simp_all <;> omega
      | false =>
        have : S'.done = S.done := funext fun j => by
          by_cases hj : j = i
          · subst hj; rw [h1, hd]
          · exact (h3 j hj).2
        rw [this, if_neg]
        · exact hh
        · rintro ⟨rfl, -⟩
          rw [h4.2 rfl] at hd; cases hd

theorem sysInv_start {S : Sys T} (h : S.Start) : SysInv S := by
  obtain ⟨⟨Ws, h1, h2, h3⟩, h4, h5⟩ := h
  have ok0 : Ok (Ws 0) := fun m => by
    obtain ⟨a, es, os, hr, -⟩ := h1 m
    exact ⟨_, Mut.sim_runs_new hr⟩
  have key : ∀ k, k ≤ n → Ok (Ws k) ∧
      (∀ i : Fin n, i.1 < k → Inv (T i).net (Ws k) (S.st i).signal none) ∧
      (∀ i j : Fin n, i.1 < k → j.1 < k → i ≠ j → ∀ m c, (T i).net.Owns (S.st i).signal m c →
        ¬ (T j).net.Owns (S.st j).signal m c) := by
    intro k
    induction k with
    | zero => exact fun _ => ⟨ok0, fun i hi => by omega, fun i j hi => by omega⟩
    | succ k ih =>
      intro hk
      obtain ⟨i1, i2, i3⟩ := ih (by omega)
      obtain ⟨f1, f2, f3⟩ := makes_ok (h2 ⟨k, hk⟩) i1
      have old : ∀ i : Fin n, i.1 < k → Inv (T i).net (Ws (k + 1)) (S.st i).signal none := fun i hi =>
        (sees_frame (i2 i hi) f1 fun _ _ _ h => h).inv _ (i2 i hi)
      have cases : ∀ i : Fin n, i.1 < k + 1 → i.1 < k ∨ i = ⟨k, hk⟩ := fun i hi =>
        (Nat.lt_succ_iff_lt_or_eq.1 hi).imp id fun h => Fin.ext h
      refine ⟨f1.ok, fun i hi => ?_, fun i j hi hj hij m c ho ho' => ?_⟩
      · rcases cases i hi with h | rfl
        · exact old i h
        · exact f2
      · rcases cases i hi with h | rfl
        · rcases cases j hj with h' | rfl
          · exact i3 i j h h' hij m c ho ho'
          · have : (Ws k m).cells ≤ c := f3 m c ho'
            have := (own_lt (i2 i h) ho).1
            omega
        · rcases cases j hj with h' | rfl
          · have : (Ws k m).cells ≤ c := f3 m c ho
            have := (own_lt (i2 j h') ho').1
            omega
          · exact hij rfl
  obtain ⟨k1, k2, k3⟩ := key n (Nat.le_refl _)
  refine ⟨h3 ▸ k1, fun i => by rw [(h4 i).1]; rfl, fun i => ?_, fun i j m c hij => k3 i j i.2 j.2 hij m c,
    fun i _ hr => absurd (h4 i).2.1 hr, fun i hd => ?_, h5⟩
  · have : S.lastCall i = none := by unfold Sys.lastCall; rw [(h4 i).1]; rfl
    rw [this, h3]
    exact k2 i i.2
  · rw [(h4 i).2.2] at hd; cases hd

theorem sysInv_steps {h : List (TaskAct n α)} {S S' : Sys T} (hi : SysInv S) (hs : Sys.Steps h S S') :
    SysInv S' := by
  induction h generalizing S with
  | nil => cases hs; exact hi
  | cons a h ih =>
    obtain ⟨S1, h1, h2⟩ := hs
    exact ih (sysInv_step hi h1) h2

/-! ## Whom a poll wakes -/

theorem retain_props (b : Bool) (l : List Nat) (x : Mut.World α) :
    (∀ k w, (((Mut.World.retain b l x).2.cell k).waker = some w) → (x.cell k).waker = some w) ∧
    ∃ ws, (Mut.World.retain b l x).2.woken = x.woken ++ ws ∧ ∀ w ∈ ws, ∃ k, (x.cell k).waker = some w := by
  induction l generalizing x with
  | nil => exact ⟨fun _ _ h => h, [], by simp [Mut.World.retain], by simp⟩
  | cons i l ih =>
    simp only [Mut.World.retain]
    split
    · obtain ⟨h1, ws, h2, h3⟩ := ih { x.setCell i ((x.cell i).wake b).1 with
        woken := x.woken ++ ((x.cell i).wake b).2 }
      have key : ∀ k w, (((x.setCell i ((x.cell i).wake b).1).cell k).waker = some w) →
          (x.cell k).waker = some w := by
        intro k w h
        simp only [Mut.World.setCell] at h
        split at h
        · simp [Mut.ChangedWaker.wake] at h
        · exact h
      refine ⟨fun k w h => key k w (h1 k w h), ((x.cell i).wake b).2 ++ ws, ?_, fun w hw => ?_⟩
      · exact h2.trans (by simp)
      · rcases List.mem_append.1 hw with hw | hw
        · exact ⟨i, by simpa [Mut.ChangedWaker.wake, Option.mem_toList] using hw⟩
        · obtain ⟨k, hk⟩ := h3 w hw
          exact ⟨k, key k w hk⟩
    · exact ih x

theorem notify_props (b : Bool) (x : Mut.World α) :
    (∀ k w, (((x.notify b).cell k).waker = some w) → (x.cell k).waker = some w) ∧
    ∃ ws, (x.notify b).woken = x.woken ++ ws ∧ ∀ w ∈ ws, ∃ k, (x.cell k).waker = some w :=
  retain_props b x.signals x

/-- One event: whom it wakes, and what it registers. -/
theorem step_wakers {x x' : Mut.World α} {e : Mut.Ev α} {o : Mut.Obs α} (hs : x.step e = some (o, x')) :
    (∀ k w, (x'.cell k).waker = some w → (x.cell k).waker = some w ∨ e = .poll k w) ∧
    ∃ ws, x'.woken = x.woken ++ ws ∧ ∀ w ∈ ws, ∃ k, (x.cell k).waker = some w := by
  have note : ∀ (b : Bool) (y : Mut.World α), y.cell = x.cell → y.woken = x.woken → x' = y.notify b →
      (∀ k w, (x'.cell k).waker = some w → (x.cell k).waker = some w ∨ e = .poll k w) ∧
      ∃ ws, x'.woken = x.woken ++ ws ∧ ∀ w ∈ ws, ∃ k, (x.cell k).waker = some w := by
    rintro b y e1 e2 rfl
    obtain ⟨h1, ws, h2, h3⟩ := notify_props b y
    rw [e1] at h1 h3
    rw [e2] at h2
    exact ⟨fun k w h => .inl (h1 k w h), ws, h2, h3⟩
  have same : ∀ (_ : x'.cell = x.cell) (_ : x'.woken = x.woken),
      (∀ k w, (x'.cell k).waker = some w → (x.cell k).waker = some w ∨ e = .poll k w) ∧
      ∃ ws, x'.woken = x.woken ++ ws ∧ ∀ w ∈ ws, ∃ k, (x.cell k).waker = some w := by
    intro e1 e2
    rw [e1, e2]
    exact ⟨fun _ _ h => .inl h, [], by simp, by simp⟩
  cases e with
  | set a =>
    simp only [Mut.World.step] at hs
    split at hs <;> cases hs
    exact note true { x with value := a } rfl rfl rfl
  | replace a =>
    simp only [Mut.World.step] at hs
    split at hs <;> cases hs
    exact note true { x with value := a } rfl rfl rfl
  | replaceWith f =>
    simp only [Mut.World.step] at hs
    split at hs <;> cases hs
    exact note true { x with value := (f x.value).1 } rfl rfl rfl
  | setIf a f =>
    simp only [Mut.World.step] at hs
    split at hs <;> cases hs
    by_cases hf : f x.value a = true
    · exact note true { x with value := a } rfl rfl (by simp [Mut.World.setIf, hf])
    · exact same (by simp [Mut.World.setIf, hf]) (by simp [Mut.World.setIf, hf])
  | lockMut us =>
    simp only [Mut.World.step] at hs
    split at hs <;> cases hs
    match hu : Mut.useAll us false x.value with
    | (true, v) => exact note true { x with value := v } rfl rfl (by simp [Mut.World.lockMut, hu])
    | (false, v) => exact same (by simp [Mut.World.lockMut, hu]) (by simp [Mut.World.lockMut, hu])
  | get => cases hs; exact same rfl rfl
  | clone =>
    simp only [Mut.World.step] at hs
    split at hs <;> cases hs
    exact same rfl rfl
  | drop =>
    simp only [Mut.World.step] at hs
    split at hs <;> cases hs
    simp only [Mut.World.drop] at note same ⊢
    split
    · split
      · obtain ⟨h1, ws, h2, h3⟩ := notify_props false
          ({ x with senders := x.senders - 1, handles := x.handles - 1 } : Mut.World α)
        exact ⟨fun k w h => .inl (h1 k w h), ws, h2, h3⟩
      · exact ⟨fun _ _ h => .inl h, [], by simp, by simp⟩
    · exact ⟨fun _ _ h => .inl h, [], by simp, by simp⟩
  | signal =>
    cases hs
    refine ⟨fun k w h => .inl ?_, [], ?_, by simp⟩
    · simp only [Mut.World.signalState, Mut.World.setCell] at h
      split at h <;> simp only at h <;> split at h <;> first | exact h | simp [Mut.ChangedWaker.new] at h
    · simp only [Mut.World.signalState, Mut.World.setCell]
      split <;> simp
  | poll i w =>
    simp only [Mut.World.step] at hs
    split at hs <;> cases hs
    simp only [Mut.World.pollChange, Mut.ChangedWaker.isChanged, Mut.World.setCell, Mut.ChangedWaker.setWaker]
    cases hc : (x.cell i).changed with
    | true =>
      refine ⟨fun k w' h => .inl ?_, [], by simp, by simp⟩
      simp only at h
      split at h
      · rename_i hk; rw [hk]; exact h
      · exact h
    | false =>
      simp only
      split
      · refine ⟨fun k w' h => .inl ?_, [], by simp, by simp⟩
        simp only at h
        split at h
        · rename_i hk; rw [hk]; exact h
        · exact h
      · refine ⟨fun k w' h => ?_, [], by simp, by simp⟩
        simp only at h
        split at h
        · rename_i hk; cases h; right; rw [hk]
        · exact .inl h
  | dropSignal i =>
    simp only [Mut.World.step] at hs
    split at hs <;> cases hs
    refine ⟨fun k w' h => .inl ?_, [], by simp [Mut.World.dropSignal, Mut.World.setCell], by simp⟩
    simp only [Mut.World.dropSignal, Mut.World.setCell] at h
    split at h
    · rename_i hk; rw [hk]; exact h
    · exact h

end Verif.Net
