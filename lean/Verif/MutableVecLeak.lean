import Verif.MutableVecWake
import Verif.Checks

/-!
# A leaked `Drain` (property C96)

`MutableVecLockMut::drain` (`/repo/src/signal_vec.rs:3255-3257`, `2975-2980`) tells the subscribers that the range is
gone and returns the `Drain` of the `Vec`.  `MutableVec.lean` models that this `Drain` is dropped.  Safe code can also
leak it (`std::mem::forget`).  `Vec::drain` (external) sets the length of the `Vec` to the start of the range and
leaves it to the destructor of the `Drain` to put the elements after the range back.
-/

namespace Verif.MutVec

variable {α : Type}

/-- `mem::forget(lock.drain(lo..hi))`, `/repo/src/signal_vec.rs:2975-2980`: the elements from the start of the range
on are lost. -/
def World.leak (w : World α) (lo hi : Bound) : Option (World α) :=
  let len := w.values.length
  match convertRange lo hi len with
  | none => none
  | some (start, stop) =>
    match w.removeRange start stop len with
    | none => none
    | some w => some { w with values := w.values.take start }

/-- The events of `Ev`, and leaking a `Drain`. -/
inductive LEv (α : Type) where
  | ev (e : Ev α)
  | leak (lo hi : Bound)

/-- One event; `none` if an operation panics. -/
def World.stepL (w : World α) : LEv α → Option (World α)
  | .ev e => w.step e
  | .leak lo hi => if w.handles = 0 then some w else w.leak lo hi

/-- A history of events. -/
def World.runsL (w : World α) : List (LEv α) → Option (World α)
  | [] => some w
  | e :: es =>
    match w.stepL e with
    | none => none
    | some w' => w'.runsL es

/-- The changes that subscriber `id` received during a history (see `received`). -/
def receivedL (id : Nat) : World α → List (LEv α) → List (VecDiff α)
  | _, [] => []
  | w, e :: es =>
    let now := match e with
      | .ev e => received id w [e]
      | .leak _ _ => []
    match w.stepL e with
    | none => now
    | some w' => now ++ receivedL id w' es

/-! ## The invariants of `MutableVecInv.lean`, up to a relation between copy and contents -/

/-- What has to be known of the relation. -/
structure StepKept (R : Nat → List α → List α → Prop) : Prop where
  refl : ∀ i l, R i l l
  step : ∀ i m l (o : Op α) r, R i m l → o.spec l = some r → ∃ m', replay (o.diffs l) m = some m' ∧ R i m' r.2

variable {R : Nat → List α → List α → Prop}

/-- Everything known about a reachable world. -/
structure InvR (R : Nat → List α → List α → Prop) (w : World α) : Prop extends WF w where
  mirror : ∀ (i : Nat) c, w.chans[i]? = some c → c.rxAlive = true →
    ∃ m, replay (c.delivered ++ c.queue) [] = some m ∧ R i m w.values
  sound : ∀ (i : Nat) c, w.chans[i]? = some c → ∃ ys, replay c.delivered [] = some ys
  waiting : ∀ (i : Nat) c x, w.chans[i]? = some c → c.waker = some x →
    c.queue = [] ∧ c.txAlive = true ∧ c.rxAlive = true
  gone : w.handles = 0 → w.senders = []

theorem invR_init (vs : List α) : InvR R (World.init vs) where
  nodup := by simp [World.init]
  bound := by simp [World.init]
  live := by simp [World.init]
  tx := by simp [World.init]
  mirror := by simp [World.init]
  sound := by simp [World.init]
  waiting := by simp [World.init]
  gone := by simp [World.init]

theorem invR_notify {R' : Nat → List α → List α → Prop} {w : World α} (hw : InvR R w) (hh : w.handles ≠ 0)
    (ds : List (VecDiff α)) (vs : List α)
    (hs : ∀ i m, R i m w.values → ∃ m', replay ds m = some m' ∧ R' i m' vs) :
    InvR R' { notifyAll w ds with values := vs } := by
  obtain ⟨h1, h2, h3, h4⟩ := wf_notifyAll hw.toWF hh ds
  refine ⟨wf_values h1 _, ?_, ?_, ?_, ?_⟩
  · intro i c hc ha
    simp only at hc ⊢
    rw [h2] at hc
    cases hx : w.chans[i]? with
    | none => simp [hx] at hc
    | some c' =>
      simp [hx] at hc; subst hc
      rw [pushAll_rxAlive] at ha
      rw [pushAll_queue _ _ ha, pushAll_delivered, ← List.append_assoc]
      obtain ⟨m, hm, hR⟩ := hw.mirror i c' hx ha
      obtain ⟨m', hm', hR'⟩ := hs i m hR
      exact ⟨m', replay_append_some hm hm', hR'⟩
  · intro i c hc
    simp only at hc
    rw [h2] at hc
    cases hx : w.chans[i]? with
    | none => simp [hx] at hc
    | some c' =>
      simp [hx] at hc; subst hc
      rw [pushAll_delivered]
      exact hw.sound i c' hx
  · intro i c x hc hwk
    simp only at hc
    rw [h2] at hc
    cases hx : w.chans[i]? with
    | none => simp [hx] at hc
    | some c' =>
      simp [hx] at hc; subst hc
      unfold pushAll at hwk ⊢
      split at hwk
      · cases hwk
      · rename_i hn
        simp only [hn, ↓reduceIte]
        exact hw.waiting i c' x hx hwk
  · intro h0
    simp only [h3] at h0
    exact absurd h0 hh

theorem invR_exec (hK : StepKept R) {w w' : World α} (hw : InvR R w) (hh : w.handles ≠ 0) {o : Op α} {r : Ret α}
    (h : w.exec o = some (r, w')) : InvR R w' := by
  rw [exec_eq] at h
  cases hs : o.spec w.values with
  | none => simp [hs] at h
  | some sp =>
    simp only [hs, Option.map_some, Option.some.injEq, Prod.mk.injEq] at h
    obtain ⟨-, rfl⟩ := h
    exact invR_notify hw hh _ _ fun i m hR => hK.step i m _ o sp hR hs

theorem invR_subscribe (hK : StepKept R) {w : World α} (hw : InvR R w) (hh : w.handles ≠ 0) : InvR R w.signalVec := by
  have hcases : ∀ (i : Nat) c, (w.chans ++ [Chan.new (if w.values.length > 0 then
      [VecDiff.replace w.values] else [])])[i]? = some c →
      w.chans[i]? = some c ∨ (i = w.chans.length ∧ c = Chan.new (if w.values.length > 0 then
      [VecDiff.replace w.values] else [])) := by
    intro i c h
    rcases Nat.lt_or_ge i w.chans.length with hi | hi
    · rw [List.getElem?_append_left hi] at h; exact .inl h
    · rw [List.getElem?_append_right hi] at h
      have : i - w.chans.length = 0 := by
        cases hk : i - w.chans.length with
        | zero => rfl
        | succ n => simp [hk] at h
      rw [this] at h
      simp at h
      exact .inr ⟨by omega, h.symm⟩
  refine ⟨⟨?_, ?_, ?_, ?_⟩, ?_, ?_, ?_, ?_⟩ <;> simp only [World.signalVec]
  · rw [List.nodup_append]
    refine ⟨hw.nodup, by simp, ?_⟩
    intro a ha b hb
    simp at hb
    have := hw.bound a ha
    omega
  · intro s hs
    simp only [List.mem_append, List.mem_singleton, List.length_append, List.length_cons,
      List.length_nil] at hs ⊢
    rcases hs with hs | hs
    · have := hw.bound s hs; omega
    · omega
  · intro i c hc ha _
    rcases hcases i c hc with h | ⟨rfl, -⟩
    · exact List.mem_append_left _ (hw.live i c h ha hh)
    · simp
  · intro i c hc ha
    rcases hcases i c hc with h | ⟨rfl, rfl⟩
    · exact hw.tx i c h ha
    · simp [Chan.new, hh]
  · intro i c hc ha
    rcases hcases i c hc with h | ⟨rfl, rfl⟩
    · exact hw.mirror i c h ha
    · simp only [Chan.new, List.nil_append]
      cases hv : w.values with
      | nil => simpa [replay] using hK.refl _ []
      | cons a l => simpa [replay, VecDiff.apply] using hK.refl _ _
  · intro i c hc
    rcases hcases i c hc with h | ⟨rfl, rfl⟩
    · exact hw.sound i c h
    · exact ⟨[], rfl⟩
  · intro i c x hc hx
    rcases hcases i c hc with h | ⟨rfl, rfl⟩
    · exact hw.waiting i c x h hx
    · simp [Chan.new] at hx
  · intro h0; exact absurd h0 hh

theorem invR_poll {w : World α} (hw : InvR R w) (id : Nat) (cx : Waker) (hl : w.rxLive id = true) :
    InvR R (w.pollRx id cx).2 := by
  unfold World.rxLive at hl
  unfold World.pollRx
  split
  · exact hw
  · rename_i c hc
    simp only [hc] at hl
    have hm := hw.mirror id c hc hl
    split
    · rename_i d ds hq
      refine ⟨⟨hw.nodup, ?_, ?_, ?_⟩, ?_, ?_, ?_, hw.gone⟩
      · simpa using hw.bound
      · intro i c' h ha hh
        rcases getElem?_set_some h with ⟨rfl, rfl, -⟩ | ⟨-, h⟩
        · exact hw.live id c hc hl hh
        · exact hw.live i c' h ha hh
      · intro i c' h ha
        rcases getElem?_set_some h with ⟨rfl, rfl, -⟩ | ⟨-, h⟩
        · exact hw.tx id c hc hl
        · exact hw.tx i c' h ha
      · intro i c' h ha
        rcases getElem?_set_some h with ⟨rfl, rfl, -⟩ | ⟨-, h⟩
        · rw [hq] at hm; simpa using hm
        · exact hw.mirror i c' h ha
      · intro i c' h
        rcases getElem?_set_some h with ⟨rfl, rfl, -⟩ | ⟨-, h⟩
        · rw [hq] at hm
          obtain ⟨m, hm, -⟩ := hm
          have hm' : (replay ((c.delivered ++ [d]) ++ ds) []).isSome := by
            simp only [List.append_assoc, List.cons_append, List.nil_append, hm, Option.isSome_some]
          exact replay_prefix hm'
        · exact hw.sound i c' h
      · intro i c' x h hx
        rcases getElem?_set_some h with ⟨rfl, rfl, -⟩ | ⟨-, h⟩
        · have := (hw.waiting id c x hc hx).1
          rw [hq] at this; cases this
        · exact hw.waiting i c' x h hx
    · rename_i hq
      split
      · rename_i htx
        refine ⟨⟨hw.nodup, ?_, ?_, ?_⟩, ?_, ?_, ?_, hw.gone⟩
        · simpa using hw.bound
        · intro i c' h ha hh
          rcases getElem?_set_some h with ⟨rfl, rfl, -⟩ | ⟨-, h⟩
          · exact hw.live id c hc hl hh
          · exact hw.live i c' h ha hh
        · intro i c' h ha
          rcases getElem?_set_some h with ⟨rfl, rfl, -⟩ | ⟨-, h⟩
          · exact hw.tx id c hc hl
          · exact hw.tx i c' h ha
        · intro i c' h ha
          rcases getElem?_set_some h with ⟨rfl, rfl, -⟩ | ⟨-, h⟩
          · exact hm
          · exact hw.mirror i c' h ha
        · intro i c' h
          rcases getElem?_set_some h with ⟨rfl, rfl, -⟩ | ⟨-, h⟩
          · exact hw.sound id c hc
          · exact hw.sound i c' h
        · intro i c' x h hx
          rcases getElem?_set_some h with ⟨rfl, rfl, -⟩ | ⟨-, h⟩
          · exact ⟨hq, htx, hl⟩
          · exact hw.waiting i c' x h hx
      · exact hw

theorem invR_dropRx {w : World α} (hw : InvR R w) (id : Nat) : InvR R (w.dropRx id) := by
  unfold World.dropRx
  split
  · exact hw
  · rename_i c hc
    refine ⟨⟨hw.nodup, ?_, ?_, ?_⟩, ?_, ?_, ?_, hw.gone⟩
    · simpa using hw.bound
    · intro i c' h ha hh
      rcases getElem?_set_some h with ⟨rfl, rfl, -⟩ | ⟨-, h⟩
      · cases ha
      · exact hw.live i c' h ha hh
    · intro i c' h ha
      rcases getElem?_set_some h with ⟨rfl, rfl, -⟩ | ⟨-, h⟩
      · cases ha
      · exact hw.tx i c' h ha
    · intro i c' h ha
      rcases getElem?_set_some h with ⟨rfl, rfl, -⟩ | ⟨-, h⟩
      · cases ha
      · exact hw.mirror i c' h ha
    · intro i c' h
      rcases getElem?_set_some h with ⟨rfl, rfl, -⟩ | ⟨-, h⟩
      · exact hw.sound id c hc
      · exact hw.sound i c' h
    · intro i c' x h hx
      rcases getElem?_set_some h with ⟨rfl, rfl, -⟩ | ⟨-, h⟩
      · cases hx
      · exact hw.waiting i c' x h hx

theorem invR_dropHandle {w : World α} (hw : InvR R w) (hh : w.handles ≠ 0) : InvR R w.dropHandle := by
  unfold World.dropHandle
  simp only
  split
  · rename_i h0
    obtain ⟨h1, h2, h3, h4, -⟩ :=
      dropSenders_spec w.senders { w with handles := w.handles - 1 }
    have hget : ∀ (i : Nat) c, (dropSenders w.senders { w with handles := w.handles - 1 }).chans[i]?
        = some c → ∃ c', w.chans[i]? = some c' ∧ c.rxAlive = c'.rxAlive ∧ c.queue = c'.queue ∧
          c.delivered = c'.delivered ∧ (c'.rxAlive = true → c.txAlive = false ∧ c.waker = none) ∧
          (c' = c ∨ c.waker = none) := by
      intro i c hc
      rw [h1] at hc
      simp only at hc
      cases hx : w.chans[i]? with
      | none => simp [hx] at hc
      | some c' =>
        simp only [hx, Option.map_some, Option.some.injEq] at hc
        by_cases hi : i ∈ w.senders
        · simp only [hi, ↓reduceIte] at hc; subst hc
          exact ⟨c', rfl, rfl, rfl, rfl, fun _ => ⟨rfl, rfl⟩, .inr rfl⟩
        · simp only [hi, ↓reduceIte] at hc; subst hc
          exact ⟨c', rfl, rfl, rfl, rfl, fun ha => absurd (hw.live i c' hx ha hh) hi, .inl rfl⟩
    refine ⟨⟨by simp, by simp, ?_, ?_⟩, ?_, ?_, ?_, ?_⟩
    · intro i c hc ha hn
      simp only [h3] at hn
      exact absurd h0 hn
    · intro i c hc ha
      obtain ⟨c', hx, e1, e2, e3, e4, -⟩ := hget i c hc
      simp only [h3]
      have := (e4 (e1 ▸ ha)).1
      simp [this, h0]
    · intro i c hc ha
      obtain ⟨c', hx, e1, e2, e3, e4, -⟩ := hget i c hc
      simp only [h2]
      rw [e2, e3]
      exact hw.mirror i c' hx (e1 ▸ ha)
    · intro i c hc
      obtain ⟨c', hx, e1, e2, e3, e4, -⟩ := hget i c hc
      rw [e3]; exact hw.sound i c' hx
    · intro i c x hc hwk
      obtain ⟨c', hx, e1, e2, e3, e4, e5⟩ := hget i c hc
      rcases e5 with rfl | e5
      · obtain ⟨-, -, ha⟩ := hw.waiting i c' x hx hwk
        have := (e4 ha).2
        rw [this] at hwk; cases hwk
      · rw [e5] at hwk; cases hwk
    · intro _; rfl
  · rename_i h0
    refine ⟨⟨hw.nodup, hw.bound, fun i c hc ha _ => hw.live i c hc ha hh, ?_⟩, hw.mirror, hw.sound,
      hw.waiting, fun h => absurd h h0⟩
    intro i c hc ha
    have := hw.tx i c hc ha
    simp only [ne_eq, hh, not_false_eq_true, iff_true] at this
    simp [this, h0]

theorem invR_step (hK : StepKept R) {w w' : World α} (hw : InvR R w) {e : Ev α} (h : w.step e = some w') : InvR R w' := by
  cases e with
  | op o =>
    simp only [World.step] at h
    split at h
    · cases h; exact hw
    · rename_i hh
      cases hx : w.exec o with
      | none => simp [hx] at h
      | some r =>
        simp [hx] at h; subst h
        exact invR_exec hK hw hh (r := r.1) (by rw [hx])
  | subscribe =>
    simp only [World.step] at h
    split at h
    · cases h; exact hw
    · cases h; exact invR_subscribe hK hw (by assumption)
  | poll id cx =>
    simp only [World.step] at h
    split at h
    · cases h; exact invR_poll hw id cx (by assumption)
    · cases h; exact hw
  | dropRx id =>
    simp only [World.step] at h
    split at h
    · cases h; exact invR_dropRx hw id
    · cases h; exact hw
  | cloneHandle =>
    simp only [World.step] at h
    split at h
    · cases h; exact hw
    · rename_i hh
      cases h
      refine ⟨⟨hw.nodup, hw.bound, fun i c hc ha _ => hw.live i c hc ha hh, ?_⟩, hw.mirror,
        hw.sound, hw.waiting, fun h => by simp at h⟩
      intro i c hc ha
      have := hw.tx i c hc ha
      simp only [ne_eq, hh, not_false_eq_true, iff_true] at this
      simp [this]
  | dropHandle =>
    simp only [World.step] at h
    split at h
    · cases h; exact hw
    · cases h; exact invR_dropHandle hw (by assumption)

theorem inv_iff {w : World α} : InvR (fun _ m l => m = l) w ↔ Inv w := by
  constructor
  · intro h
    exact ⟨h.toWF, fun i c hc ha => by obtain ⟨m, hm, rfl⟩ := h.mirror i c hc ha; exact hm, h.sound, h.waiting, h.gone⟩
  · intro h
    exact ⟨h.toWF, fun i c hc ha => ⟨_, h.mirror i c hc ha, rfl⟩, h.sound, h.waiting, h.gone⟩

/-! ## Exact or too long -/

/-- The copy equals the contents or is longer. -/
def Over (m l : List α) : Prop := m = l ∨ l.length < m.length

theorem apply_room {d : VecDiff α} {l l' : List α} (h : d.apply l = some l') :
    d.Room l.length ∧ l'.length = d.lenAfter l.length := by
  by_cases hr : d.Room l.length
  · obtain ⟨y, h1, h2⟩ := room_apply hr
    rw [h] at h1
    cases h1
    exact ⟨hr, h2⟩
  · exfalso
    cases d with
    | replace => exact hr trivial
    | push => exact hr trivial
    | clear => exact hr trivial
    | insertAt i a => simp only [VecDiff.apply, vInsert] at h; split at h; exact hr (by assumption); cases h
    | updateAt i a => simp only [VecDiff.apply, vSet] at h; split at h; exact hr (by assumption); cases h
    | removeAt i =>
      simp only [VecDiff.apply] at h
      cases hx : vRemove l i with
      | none => simp [hx] at h
      | some p => exact hr (vRemove_room hx).1
    | pop =>
      simp only [VecDiff.apply] at h
      cases hx : vPop l with
      | mk a l2 => 
        cases a with
        | none => simp [hx] at h
        | some a => exact hr (vPop_room hx).1
    | move i j =>
      simp only [VecDiff.apply] at h
      cases hx : vRemove l i with
      | none => simp [hx] at h
      | some p =>
        simp only [hx] at h
        have h1 := vRemove_room hx
        have h2 := vInsert_room h
        exact hr ⟨h1.1, by omega⟩

theorem over_apply {d : VecDiff α} {m l l' : List α} (hO : Over m l) (h : d.apply l = some l') :
    ∃ m', d.apply m = some m' ∧ Over m' l' := by
  rcases hO with rfl | hO
  · exact ⟨l', h, .inl rfl⟩
  · obtain ⟨h1, h2⟩ := apply_room h
    have hm : d.Room m.length := by
      cases d <;> simp only [VecDiff.Room] at h1 ⊢ <;> omega
    obtain ⟨m', h3, h4⟩ := room_apply hm
    refine ⟨m', h3, ?_⟩
    cases d with
    | replace vs => cases h; cases h3; exact .inl rfl
    | clear => cases h; cases h3; exact .inl rfl
    | _ => right; simp only [VecDiff.Room, VecDiff.lenAfter] at *; omega

theorem over_replay {ds : List (VecDiff α)} {m l l' : List α} (hO : Over m l) (h : replay ds l = some l') :
    ∃ m', replay ds m = some m' ∧ Over m' l' := by
  induction ds generalizing m l with
  | nil => cases h; exact ⟨m, rfl, hO⟩
  | cons d ds ih =>
    simp only [replay] at h ⊢
    cases hd : d.apply l with
    | none => simp [hd] at h
    | some l1 =>
      simp only [hd] at h
      obtain ⟨m1, h1, hO1⟩ := over_apply hO hd
      obtain ⟨m', h2, hO'⟩ := ih hO1 h
      exact ⟨m', by simp [h1, h2], hO'⟩

theorem over_kept : StepKept (fun _ => Over (α := α)) where
  refl _ _ := .inl rfl
  step _ _ l o r hO hs := over_replay hO (replay_diffs o l r hs)

/-- Subscribers from number `n` on are exact, the others at least not too short. -/
def From (n i : Nat) (m l : List α) : Prop := if n ≤ i then m = l else Over m l

theorem from_kept (n : Nat) : StepKept (From (α := α) n) where
  refl i l := by unfold From; split <;> first | rfl | exact .inl rfl
  step i m l o r hR hs := by
    by_cases hn : n ≤ i
    · simp only [From, hn, ↓reduceIte] at *
      subst hR
      exact ⟨r.2, replay_diffs o m r hs, rfl⟩
    · simp only [From, hn, ↓reduceIte] at *
      exact over_replay hR (replay_diffs o l r hs)

theorem over_append {m p q : List α} (hO : Over m (p ++ q)) : Over m p := by
  rcases hO with rfl | hO
  · cases q with
    | nil => left; simp
    | cons => right; simp
  · right; simp at hO; omega

theorem leak_eq (w : World α) (lo hi : Bound) :
    w.leak lo hi = if lo.lower ≤ hi.upper w.values.length ∧ hi.upper w.values.length ≤ w.values.length then
      some { notifyAll w (rangeDiffs lo.lower (hi.upper w.values.length) w.values.length) with
        values := w.values.take lo.lower } else none := by
  simp only [World.leak, convertRange_eq]
  by_cases h : lo.lower ≤ hi.upper w.values.length ∧ hi.upper w.values.length ≤ w.values.length
  · simp only [h, and_self, ↓reduceIte, removeRange_eq w _ _ _ h.2]
    have := notifyAll_values w (rangeDiffs lo.lower (hi.upper w.values.length) w.values.length) w.values
    have := congrArg World.values this
    congr 2
    exact congrArg (List.take lo.lower) this
  · simp only [h, ↓reduceIte]

theorem invR_runs (hK : StepKept R) {w w' : World α} (hw : InvR R w) {es : List (Ev α)} (h : w.runs es = some w') :
    InvR R w' := by
  induction es generalizing w with
  | nil => cases h; exact hw
  | cons e es ih =>
    simp only [World.runs] at h
    split at h
    · cases h
    · rename_i w1 h1
      exact ih (invR_step hK hw h1) h

theorem invL_step {w w' : World α} (hw : InvR (fun _ => Over) w) {e : LEv α} (h : w.stepL e = some w') :
    InvR (fun _ => Over) w' := by
  cases e with
  | ev e => exact invR_step over_kept hw h
  | leak lo hi =>
    simp only [World.stepL] at h
    split at h
    · cases h; exact hw
    · rename_i hh
      rw [leak_eq] at h
      split at h
      · rename_i hb
        cases h
        refine invR_notify hw hh _ _ fun i m hR => ?_
        have hr := replay_rangeDiffs w.values lo.lower _ hb.2
        obtain ⟨m', h1, h2⟩ := over_replay hR hr
        exact ⟨m', h1, over_append h2⟩
      · cases h

theorem invL_runs {w w' : World α} (hw : InvR (fun _ => Over) w) {es : List (LEv α)} (h : w.runsL es = some w') :
    InvR (fun _ => Over) w' := by
  induction es generalizing w with
  | nil => cases h; exact hw
  | cons e es ih =>
    simp only [World.runsL] at h
    split at h
    · cases h
    · rename_i w1 h1
      exact ih (invL_step hw h1) h

theorem runsL_log {w w' : World α} (hw : InvR (fun _ => Over) w) {es : List (LEv α)} (h : w.runsL es = some w')
    (k : Nat) : w'.log k = w.log k ++ receivedL k w es := by
  induction es generalizing w with
  | nil => cases h; simp [receivedL]
  | cons e es ih =>
    simp only [World.runsL] at h
    cases hs : w.stepL e with
    | none => simp [hs] at h
    | some w1 =>
      simp only [hs] at h
      rw [ih (invL_step hw hs) h]
      simp only [receivedL, hs, ← List.append_assoc]
      congr 1
      cases e with
      | ev e => exact step_log hw.toWF hs k
      | leak lo hi =>
        simp only [World.stepL] at hs
        split at hs
        · cases hs; simp
        · rename_i hh
          rw [leak_eq] at hs
          split at hs
          · cases hs
            obtain ⟨-, h2, -, -⟩ := wf_notifyAll hw.toWF hh
              (rangeDiffs lo.lower (hi.upper w.values.length) w.values.length)
            rw [List.append_nil]
            exact log_of_map (pushAll_delivered _) (h2 k)
          · cases hs

theorem runsR_log (hK : StepKept R) {w w' : World α} (hw : InvR R w) {es : List (Ev α)} (h : w.runs es = some w')
    (k : Nat) : w'.log k = w.log k ++ received k w es := by
  induction es generalizing w with
  | nil => cases h; simp [received]
  | cons e es ih =>
    simp only [World.runs] at h
    cases hs : w.step e with
    | none => simp [hs] at h
    | some w1 =>
      simp only [hs] at h
      rw [ih (invR_step hK hw hs) h, step_log hw.toWF hs k, received_cons (es := es) hs, List.append_assoc]

end Verif.MutVec
