import Verif.HubProofs

/-!
# A broadcast that a panic cuts short
-/

namespace Verif

variable {D : Type}

/-- The first `n` rounds of `senders.retain(…)` in `notify_clone`
(`/repo/src/signal_map.rs:552-563`; the same in `/repo/src/signal_vec.rs:2855-2870`), after which
`clone` panics: of the senders of these rounds those that failed are gone, the rest stays. -/
def hubSome (d : D) : Nat → List Nat → Hub D → List Nat × Hub D
  | 0, ss, h => (ss, h)
  | _ + 1, [], h => ([], h)
  | n + 1, s :: ss, h =>
    let r := h.send s d
    let rest := hubSome d n ss r.2
    (if r.1 then s :: rest.1 else rest.1, rest.2)

/-- `notify_clone` (`/repo/src/signal_map.rs:545-566`) up to a panic in round `n`, before its send. -/
def Hub.notifySome (h : Hub D) (d : D) (n : Nat) : Hub D :=
  let r := hubSome d n h.senders h
  { r.2 with senders := r.1 }

theorem hubSome_eq (d : D) (n : Nat) (ss : List Nat) (h : Hub D) :
    hubSome d n ss h = ((hubRetain d (ss.take n) h).1 ++ ss.drop n, (hubRetain d (ss.take n) h).2) := by
  induction n generalizing ss h with
  | zero => simp [hubSome, hubRetain]
  | succ n ih =>
    cases ss with
    | nil => simp [hubSome, hubRetain]
    | cons s ss =>
      simp only [hubSome, ih, hubRetain, List.take_succ_cons, List.drop_succ_cons]
      split <;> rfl

theorem hub_notifySome {h : Hub D} (hw : HubWF h) (hh : h.handles ≠ 0) (d : D) (n : Nat) :
    HubWF (h.notifySome d n) ∧
    (∀ i : Nat, (h.notifySome d n).links[i]? = h.links[i]?.map (hubHit (h.senders.take n) d i)) ∧
    (h.notifySome d n).handles = h.handles ∧
    (h.notifySome d n).woken = h.woken ++ (h.senders.take n).flatMap (hubWakes h.links) := by
  have hnd : (h.senders.take n).Nodup := hw.nodup.sublist (List.take_sublist n _)
  obtain ⟨h1, h2, h5, h6, h7⟩ := hubRetain_spec d (h.senders.take n) hnd h
  have e : h.notifySome d n = { (hubRetain d (h.senders.take n) h).2 with
      senders := (h.senders.take n).filter h.rxLive ++ h.senders.drop n } := by
    simp only [Hub.notifySome, hubSome_eq, h2]
  have inv : ∀ (i : Nat) c, (h.notifySome d n).links[i]? = some c →
      ∃ c', h.links[i]? = some c' ∧ c = hubHit (h.senders.take n) d i c' := by
    intro i c hx
    rw [e] at hx
    simp only [h1] at hx
    cases hx' : h.links[i]? with
    | none => simp [hx'] at hx
    | some c' => simp [hx'] at hx; exact ⟨c', rfl, hx.symm⟩
  have hhand : (h.notifySome d n).handles = h.handles := by rw [e]; exact h5
  have hsub : (h.notifySome d n).senders.Sublist h.senders := by
    rw [e]
    have := (List.filter_sublist (p := h.rxLive) (l := h.senders.take n)).append
      (List.Sublist.refl (h.senders.drop n))
    rwa [List.take_append_drop] at this
  refine ⟨⟨?_, ?_, ?_, ?_, ?_, ?_⟩, by rw [e]; exact h1, hhand, by rw [e]; exact h6⟩
  · exact hw.nodup.sublist hsub
  · intro s hs
    rw [e]
    show s < (hubRetain d (h.senders.take n) h).2.links.length
    rw [h7]
    exact hw.bound s (hsub.subset hs)
  · intro i c hx ha _
    obtain ⟨c', hx', rfl⟩ := inv i c hx
    rw [hubHit_rxAlive] at ha
    have hm := hw.live i c' hx' ha hh
    rw [e]
    show i ∈ List.filter h.rxLive (h.senders.take n) ++ h.senders.drop n
    rw [← List.take_append_drop n h.senders, List.mem_append] at hm
    rw [List.mem_append, List.mem_filter]
    exact hm.imp (fun hm => ⟨hm, by simp [Hub.rxLive, hx', ha]⟩) id
  · intro i c hx ha
    obtain ⟨c', hx', rfl⟩ := inv i c hx
    rw [hubHit_rxAlive] at ha
    rw [hhand]
    have : (hubHit (h.senders.take n) d i c').txAlive = c'.txAlive := by unfold hubHit; split <;> rfl
    rw [this]
    exact hw.tx i c' hx' ha
  · intro i c x hx hwk
    obtain ⟨c', hx', rfl⟩ := inv i c hx
    unfold hubHit at hwk ⊢
    split at hwk
    · cases hwk
    · rename_i hn
      rw [if_neg hn]
      exact hw.waiting i c' x hx' hwk
  · intro h0
    rw [hhand] at h0
    exact absurd h0 hh

/-- Each receiver for itself has got the diff or not. -/
theorem tracks_notifySome {R R' S : List D → Prop} {h : Hub D} (hw : HubWF h) (hh : h.handles ≠ 0)
    {d : D} {n : Nat} (ht : Tracks R S h) (h0 : ∀ l, R l → R' l) (h1 : ∀ l, R l → R' (l ++ [d])) :
    Tracks R' S (h.notifySome d n) := by
  obtain ⟨-, h2, -⟩ := hub_notifySome hw hh d n
  have inv : ∀ (i : Nat) c, (h.notifySome d n).links[i]? = some c →
      ∃ c', h.links[i]? = some c' ∧ c = hubHit (h.senders.take n) d i c' := by
    intro i c hx
    rw [h2] at hx
    cases hx' : h.links[i]? with
    | none => simp [hx'] at hx
    | some c' => simp [hx'] at hx; exact ⟨c', rfl, hx.symm⟩
  refine ⟨fun i c hc ha => ?_, fun i c hc => ?_⟩
  · obtain ⟨c', hx', rfl⟩ := inv i c hc
    rw [hubHit_rxAlive] at ha
    have := ht.mirror i c' hx' ha
    unfold hubHit
    split
    · simpa using h1 _ this
    · exact h0 _ this
  · obtain ⟨c', hx', rfl⟩ := inv i c hc
    have : (hubHit (h.senders.take n) d i c').delivered = c'.delivered := by
      unfold hubHit; split <;> rfl
    rw [this]
    exact ht.sound i c' hx'

/-- A receiver that waits is woken, or it waits still. -/
theorem notifySome_wake {h : Hub D} (hw : HubWF h) (hh : h.handles ≠ 0) (d : D) (n : Nat) :
    ∃ new, (h.notifySome d n).woken = h.woken ++ new ∧
      ∀ (k : Nat) (c : Link D) (x : Waker), h.links[k]? = some c → c.waker = some x →
        (x ∈ new ∨ ∃ c' : Link D, (h.notifySome d n).links[k]? = some c' ∧ c'.waker = some x) := by
  obtain ⟨-, h2, -, h4⟩ := hub_notifySome hw hh d n
  refine ⟨_, h4, fun k c x hc hx => ?_⟩
  have hl := (hw.waiting k c x hc hx).2.2
  by_cases hm : k ∈ h.senders.take n
  · exact .inl (List.mem_flatMap.2 ⟨k, hm, by simp [hubWakes, hc, hl, hx]⟩)
  · exact .inr ⟨c, by rw [h2, hc]; simp [hubHit, hm], hx⟩

theorem notifySome_log {h : Hub D} (hw : HubWF h) (hh : h.handles ≠ 0) (d : D) (n k : Nat) :
    (h.notifySome d n).log k = h.log k := by
  obtain ⟨-, h2, -⟩ := hub_notifySome hw hh d n
  exact hub_log_of_map (f := hubHit (h.senders.take n) d k)
    (fun c => by unfold hubHit; split <;> rfl) (h2 k)

/-! ## Histories -/

/-- What can happen to a hub, panics included. -/
inductive HubPEv (D : Type) where
  | ev (e : HubEv D)
  | cut (d : D) (n : Nat)

/-- One event. -/
def Hub.pstep (h : Hub D) : HubPEv D → Hub D
  | .ev e => h.step e
  | .cut d n => if h.handles = 0 then h else h.notifySome d n

def Hub.psteps (h : Hub D) (es : List (HubPEv D)) : Hub D := es.foldl Hub.pstep h

theorem psteps_append (h : Hub D) (es es' : List (HubPEv D)) :
    h.psteps (es ++ es') = (h.psteps es).psteps es' := by simp [Hub.psteps]

theorem hub_pstep {h : Hub D} (hw : HubWF h) (e : HubPEv D) : HubWF (h.pstep e) := by
  cases e with
  | ev e => exact hub_step hw e
  | cut d n =>
    simp only [Hub.pstep]; split
    · exact hw
    · exact (hub_notifySome hw (by assumption) d n).1

theorem hub_psteps {h : Hub D} (hw : HubWF h) (es : List (HubPEv D)) : HubWF (h.psteps es) := by
  induction es generalizing h with
  | nil => exact hw
  | cons e es ih => exact ih (hub_pstep hw e)

theorem hub_pstep_wake {h : Hub D} (hw : HubWF h) (e : HubPEv D) :
    ∃ new, (h.pstep e).woken = h.woken ++ new ∧
      ∀ (k : Nat) (c : Link D) (x : Waker), h.links[k]? = some c → c.waker = some x →
        (∀ cx, e ≠ .ev (.poll k cx)) → e ≠ .ev (.dropRx k) →
        (x ∈ new ∨ ∃ c' : Link D, (h.pstep e).links[k]? = some c' ∧ c'.waker = some x) := by
  cases e with
  | ev e =>
    obtain ⟨new, h1, h2⟩ := hub_step_wake hw e
    exact ⟨new, h1, fun k c x hc hx hp hd =>
      h2 k c x hc hx (fun cx he => hp cx (by rw [he])) (fun he => hd (by rw [he]))⟩
  | cut d n =>
    simp only [Hub.pstep]
    split
    · exact ⟨[], by simp, fun k c x hc hx _ _ => .inr ⟨c, hc, hx⟩⟩
    · obtain ⟨new, h1, h2⟩ := notifySome_wake hw (by assumption) d n
      exact ⟨new, h1, fun k c x hc hx _ _ => h2 k c x hc hx⟩

theorem hub_psteps_wake {h : Hub D} (hw : HubWF h) (es : List (HubPEv D)) :
    ∃ new, (h.psteps es).woken = h.woken ++ new ∧
      ∀ (k : Nat) (c : Link D) (x : Waker), h.links[k]? = some c → c.waker = some x →
        (∀ cx, .ev (.poll k cx) ∉ es) → .ev (.dropRx k) ∉ es →
        (x ∈ new ∨ ∃ c' : Link D, (h.psteps es).links[k]? = some c' ∧ c'.waker = some x) := by
  induction es generalizing h with
  | nil => exact ⟨[], by simp [Hub.psteps], fun k c x hc hx _ _ => .inr ⟨c, hc, hx⟩⟩
  | cons e es ih =>
    obtain ⟨n1, h1, h2⟩ := hub_pstep_wake hw e
    obtain ⟨n2, h3, h4⟩ := ih (hub_pstep hw e)
    refine ⟨n1 ++ n2, ?_, fun k c x hc hx hp hd => ?_⟩
    · simp only [Hub.psteps, List.foldl_cons] at h3 ⊢
      rw [h3, h1, List.append_assoc]
    · rcases h2 k c x hc hx (fun cx he => hp cx (by simp [he])) (fun he => hd (by simp [he]))
        with h' | ⟨c', hc', hx'⟩
      · exact .inl (by simp [h'])
      · rcases h4 k c' x hc' hx' (fun cx hm => hp cx (by simp [hm])) (fun hm => hd (by simp [hm]))
          with h' | h'
        · exact .inl (by simp [h'])
        · exact .inr h'

/-- Only a poll delivers something. -/
theorem hub_psteps_log {h : Hub D} (hw : HubWF h) (es : List (HubPEv D)) (k : Nat)
    (hp : ∀ cx, .ev (.poll k cx) ∉ es) : (h.psteps es).log k = h.log k := by
  induction es generalizing h with
  | nil => rfl
  | cons e es ih =>
    have h1 : (h.pstep e).log k = h.log k := by
      cases e with
      | ev e =>
        simp only [Hub.pstep]
        rw [hub_step_log hw]
        cases e with
        | poll id cx =>
          have : id ≠ k := by rintro rfl; exact hp cx (by simp)
          simp [Hub.delivers, this]
        | _ => simp [Hub.delivers]
      | cut d n =>
        simp only [Hub.pstep]
        split
        · rfl
        · exact notifySome_log hw (by assumption) d n k
    have := ih (hub_pstep hw e) (fun cx hm => hp cx (by simp [hm]))
    rw [← h1, ← this]
    rfl

theorem notify_psteps (ds : List D) {h : Hub D} (hw : HubWF h)
    (hh : h.handles ≠ 0) : ds.foldl Hub.notify h = h.psteps (ds.map fun d => .ev (.notify d)) ∧
      (ds.foldl Hub.notify h).handles = h.handles := by
  induction ds generalizing h with
  | nil => exact ⟨rfl, rfl⟩
  | cons d ds ih =>
    obtain ⟨h1, -, h2, -⟩ := hub_notify hw hh d
    have : h.pstep (.ev (.notify d)) = h.notify d := by simp [Hub.pstep, Hub.step, hh]
    simp only [List.foldl_cons, List.map_cons, Hub.psteps, this]
    have := ih h1 (by rw [h2]; exact hh)
    exact ⟨this.1, by rw [this.2, h2]⟩

end Verif
