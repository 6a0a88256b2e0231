import Verif.MutableConcProofs

/-!
# `Mutable`, interleaving model: how often a signal produces a value
-/

namespace Verif.MutConc

variable {α : Type}

theorem produced_append (as bs : List (Answer α)) : produced (as ++ bs) = produced as ++ produced bs := by
  induction as with
  | nil => rfl
  | cons a as ih =>
    obtain ⟨w, s, r, v⟩ := a
    rcases r with (- | x) | - <;> simp [produced, ih]

theorem mem_produced {as : List (Answer α)} {v : Nat} {x : α} (h : (v, x) ∈ produced as) :
    ∃ b ∈ as, b.answer = .ready (some x) ∧ b.version = v := by
  induction as with
  | nil => cases h
  | cons a as ih =>
    obtain ⟨w, s, r, u⟩ := a
    rcases r with (- | y) | -
    · obtain ⟨b, hb, hx⟩ := ih h
      exact ⟨b, .tail _ hb, hx⟩
    · simp only [produced, List.mem_cons, Prod.mk.injEq] at h
      rcases h with ⟨rfl, rfl⟩ | h
      · exact ⟨_, .head _, rfl, rfl⟩
      · obtain ⟨b, hb, hx⟩ := ih h
        exact ⟨b, .tail _ hb, hx⟩
    · obtain ⟨b, hb, hx⟩ := ih h
      exact ⟨b, .tail _ hb, hx⟩

/-- A write will still set `changed`. -/
def World.owed (m : World α) (i : Nat) : Nat :=
  match m.writer with
  | some ⟨todo, true, _⟩ => if i ∈ todo then 1 else 0
  | _ => 0

/-- The values a signal has produced and those it is going to produce. -/
def Sig.due (s : Sig α) : Nat :=
  (produced s.answers).length + s.changed.toNat + s.pc.reading.toNat

structure CInv (m : World α) : Prop where
  nodup : m.signals.Nodup
  live : ∀ i ∈ m.signals, (m.sigs i).pc.live = true
  todo : ∀ wr, m.writer = some wr → wr.todo.Sublist m.signals
  fresh : ∀ i, m.made ≤ i → (m.sigs i).pc = .unborn
  cnt : ∀ i, (m.sigs i).due + m.owed i ≤ m.log.length
  mono : ∀ i, (produced (m.sigs i).answers).Pairwise (fun p q => p.1 ≤ q.1)

theorem CInv.owed_zero {m : World α} (h : CInv m) {i : Nat} (hi : (m.sigs i).pc.live = false) :
    m.owed i = 0 := by
  unfold World.owed
  split
  · rename_i hw
    split
    · rename_i hm
      have := h.live i ((h.todo _ hw).subset hm)
      rw [this] at hi; cases hi
    · rfl
  · rfl

theorem CInv.upd {m : World α} (h : CInv m) {i : Nat} {s : Sig α} (hb : (m.sigs i).pc = .unborn → s.pc = .unborn)
    (hl : (m.sigs i).pc.live = true → s.pc.live = true)
    (hd : s.due + m.owed i ≤ m.log.length)
    (hm : (produced s.answers).Pairwise (fun p q => p.1 ≤ q.1)) : CInv (m.upd i s) := by
  refine ⟨h.nodup, fun j hj => ?_, h.todo, fun j hj => ?_, fun j => ?_, fun j => ?_⟩
  · show (if j = i then s else m.sigs j).pc.live = true
    split
    · rename_i k; subst k; exact hl (h.live j hj)
    · exact h.live j hj
  · show (if j = i then s else m.sigs j).pc = .unborn
    split
    · rename_i k; subst k; exact hb (h.fresh j hj)
    · exact h.fresh j hj
  · show (if j = i then s else m.sigs j).due + m.owed j ≤ _
    split
    · rename_i k; subst k; exact hd
    · exact h.cnt j
  · show (produced (if j = i then s else m.sigs j).answers).Pairwise _
    split
    · exact hm
    · exact h.mono j

theorem CInv.writer {m : World α} (h : CInv m) {wr : Option Writer}
    (ht : ∀ w, wr = some w → w.todo.Sublist m.signals)
    (ho : ∀ i, ({ m with writer := wr } : World α).owed i ≤ m.owed i) : CInv { m with writer := wr } :=
  ⟨h.nodup, h.live, ht, h.fresh, fun i => by
    have h1 := h.cnt i
    have h2 := ho i
    show (m.sigs i).due + _ ≤ m.log.length
    omega, h.mono⟩

theorem cinv_wstep {m : World α} {wr : Writer} (h : CInv m) (hw : m.writer = some wr) :
    CInv (m.wstep wr) := by
  obtain ⟨todo, ch, ph⟩ := wr
  have hsub := h.todo _ hw
  cases ph with
  | next =>
    cases todo with
    | nil =>
      simp only [World.wstep]
      have h1 : CInv { m with writer := none } :=
        h.writer (fun w k => (by cases k)) (fun i => Nat.zero_le _)
      cases ch with
      | true => exact h1
      | false =>
        exact ⟨List.nodup_nil, fun i k => (by cases k), fun w k => (by cases k), h1.fresh, h1.cnt, h1.mono⟩
    | cons i rest =>
      simp only [World.wstep]
      have hmem : i ∈ m.signals := hsub.subset (.head _)
      have hlive := h.live i hmem
      have hni : i ∉ rest := ((List.nodup_cons.1 (h.nodup.sublist hsub)).1)
      have h1 : CInv { m with writer := some ⟨rest, ch, .take i⟩ } := by
        refine h.writer ?_ (fun j => ?_)
        · rintro w ⟨⟩
          exact (List.sublist_cons_self _ _).trans hsub
        · simp only [World.owed, hw]
          cases ch
          · simp
          · simp only
            by_cases hj : j ∈ rest <;> simp [hj]
      refine h1.upd (i := i) (s := { m.sigs i with changed := ch || (m.sigs i).changed }) (fun k => k)
        (fun k => k) ?_ (h.mono i)
      have hc := h.cnt i
      cases ch with
      | false => simpa [World.owed, Sig.due, hw] using hc
      | true =>
        simp only [World.owed, hw, List.mem_cons, true_or, if_true, Sig.due] at hc
        simp only [World.owed, hni, if_false, Sig.due, Bool.true_or, Bool.toNat_true]
        omega
  | take i =>
    simp only [World.wstep]
    have h1 : ∀ ph', CInv { m with writer := some ⟨todo, ch, ph'⟩ } := by
      intro ph'
      refine h.writer ?_ (fun j => ?_)
      · rintro w ⟨⟩; exact hsub
      · simp only [World.owed, hw]; cases ch <;> simp
    split
    · rename_i w hwk
      exact (h1 (.wake i w)).upd (i := i) (s := { m.sigs i with waker := none }) (fun k => k) (fun k => k)
        ((h1 (.wake i w)).cnt i) (h.mono i)
    · exact h1 _
  | wake i w =>
    simp only [World.wstep]
    have h1 : CInv { m with writer := some ⟨todo, ch, .next⟩ } := by
      refine h.writer ?_ (fun j => ?_)
      · rintro w ⟨⟩; exact hsub
      · simp only [World.owed, hw]; cases ch <;> simp
    exact h1.upd (i := i) (s := { m.sigs i with woken := (m.sigs i).woken ++ [w] }) (fun k => k)
      (fun k => k) (h1.cnt i) (h.mono i)

theorem completed_le_log (m : World α) : m.completed ≤ m.log.length := by
  unfold World.completed
  split <;> omega

theorem cinv_sstep {m m' : World α} {i : Nat} (hi : Inv m) (h : CInv m) (hs : m.sstep i = some m') :
    CInv m' := by
  simp only [World.sstep] at hs
  split at hs
  · cases hs
  · cases hs
  · rename_i hpc
    cases hs
    have hc := h.cnt i
    refine h.upd (by simp [hpc]) (fun k => by simp [hpc, SPc.live] at k) ?_ (h.mono i)
    by_cases hz : m.senders = 0 <;> simpa [hz, Sig.due, hpc, SPc.reading] using hc
  · rename_i hpc
    split at hs
    · cases hs
    · rename_i hw
      cases hs
      have hc := h.cnt i
      have h1 : CInv (m.upd i { m.sigs i with pc := .idle }) := by
        refine h.upd (by simp [hpc]) (fun _ => rfl) ?_ (h.mono i)
        simpa [Sig.due, hpc, SPc.reading] using hc
      refine ⟨?_, fun j hj => ?_, ?_, h1.fresh, h1.cnt, h1.mono⟩
      · refine List.nodup_append.2 ⟨h.nodup, (by simp), ?_⟩
        intro a ha b hb k
        rw [List.mem_singleton] at hb
        subst hb
        subst k
        have := h.live a ha
        rw [hpc] at this; cases this
      · rcases List.mem_append.1 hj with hj | hj
        · exact h1.live j hj
        · rw [List.mem_singleton] at hj
          subst hj
          simp [World.upd, SPc.live]
      · intro wr k
        rw [show m.writer = some wr from k] at hw; cases hw
  · rename_i w c hpc
    have hc := h.cnt i
    split at hs
    · rename_i hch
      cases hs
      refine h.upd (by simp [hpc]) (fun _ => rfl) ?_ (h.mono i)
      simp only [Sig.due, hpc, SPc.reading, hch, Bool.toNat_true, Bool.toNat_false] at hc ⊢
      omega
    · cases hs
      refine h.upd (by simp [hpc]) (fun _ => rfl) ?_ (h.mono i)
      simpa [Sig.due, hpc, SPc.reading] using hc
  · rename_i w c hpc
    have hc := h.cnt i
    split at hs
    · cases hs
    · cases hs
      refine h.upd (by simp [hpc]) (fun _ => rfl) ?_ ?_
      · simp only [Sig.due, hpc, SPc.reading, produced_append, produced, List.length_append,
          List.length_singleton, Bool.toNat_true, Bool.toNat_false] at hc ⊢
        omega
      · simp only [produced_append, produced]
        refine List.pairwise_append.2 ⟨h.mono i, List.pairwise_singleton _ _, ?_⟩
        rintro ⟨v, x⟩ hv q hq
        rw [List.mem_singleton] at hq
        subst hq
        obtain ⟨b, hb, hx, rfl⟩ := mem_produced hv
        have h1 := ((hi.sig i).val b hb x hx).2.2.1
        have h2 := completed_le_log m
        show b.version ≤ m.log.length
        omega
  · rename_i w c hpc
    have hc := h.cnt i
    split at hs
    · cases hs
      refine h.upd (by simp [hpc]) (fun _ => rfl) ?_ ?_
      · simpa [Sig.due, hpc, SPc.reading, produced_append, produced] using hc
      · simpa [produced_append, produced] using h.mono i
    · cases hs
      refine h.upd (by simp [hpc]) (fun _ => rfl) ?_ (h.mono i)
      simpa [Sig.due, hpc, SPc.reading] using hc
  · rename_i w c hpc
    have hc := h.cnt i
    split at hs
    · cases hs
    · cases hs
      refine h.upd (by simp [hpc]) (fun _ => rfl) ?_ ?_
      · simpa [Sig.due, hpc, SPc.reading, produced_append, produced] using hc
      · simpa [produced_append, produced] using h.mono i

theorem cinv_step {m m' : World α} {e : Ev α} (hi : Inv m) (h : CInv m)
    (hs : m.step e = some ((), m')) : CInv m' := by
  cases e with
  | write a =>
    simp only [World.step] at hs
    split at hs
    · cases hs
    · rename_i hw
      split at hs <;> cases hs
      refine ⟨h.nodup, h.live, ?_, h.fresh, fun i => ?_, h.mono⟩
      · rintro wr ⟨⟩; exact List.Sublist.refl _
      · have := h.cnt i
        simp only [World.owed, List.length_append, List.length_singleton]
        simp only [World.owed, hw] at this
        split <;> omega
  | wstep =>
    simp only [World.step] at hs
    split at hs
    · cases hs
    · rename_i hw
      cases hs
      exact cinv_wstep h hw
  | clone =>
    simp only [World.step] at hs
    split at hs <;> cases hs
    exact ⟨h.nodup, h.live, h.todo, h.fresh, h.cnt, h.mono⟩
  | drop =>
    simp only [World.step] at hs
    split at hs <;> (try split at hs) <;> cases hs <;>
      exact ⟨h.nodup, h.live, h.todo, h.fresh, h.cnt, h.mono⟩
  | endLock =>
    simp only [World.step] at hs
    split at hs
    · cases hs
    · rename_i hw
      split at hs <;> cases hs
      refine ⟨h.nodup, h.live, ?_, h.fresh, fun i => ?_, h.mono⟩
      · rintro wr ⟨⟩; exact List.Sublist.refl _
      · have := h.cnt i
        simpa [World.owed, hw] using this
  | subscribe =>
    simp only [World.step] at hs
    cases hs
    have hf := h.fresh m.made (Nat.le_refl _)
    have hns : m.made ∉ m.signals := by
      intro k
      have := h.live _ k
      rw [hf] at this; cases this
    have ho := h.owed_zero (i := m.made) (by rw [hf]; rfl)
    have hlp := hi.log_pos
    refine ⟨h.nodup, fun j hj => ?_, h.todo, fun j hj => ?_, fun j => ?_, fun j => ?_⟩
    · have hne : j ≠ m.made := fun k => hns (k ▸ hj)
      simpa [World.upd, hne] using h.live j hj
    · have hj : m.made + 1 ≤ j := hj
      have hne : j ≠ m.made := by omega
      simpa [World.upd, hne] using h.fresh j (by omega)
    · by_cases hne : j = m.made
      · subst hne
        show Sig.due (if m.made = m.made then _ else _) + m.owed m.made ≤ m.log.length
        rw [if_pos rfl, ho]
        simpa [Sig.due, produced, SPc.reading] using hlp
      · have := h.cnt j
        show Sig.due (if j = m.made then _ else m.sigs j) + m.owed j ≤ m.log.length
        rw [if_neg hne]
        exact this
    · by_cases hne : j = m.made
      · subst hne
        simp [World.upd, produced]
      · simpa [World.upd, hne] using h.mono j
  | poll i w =>
    simp only [World.step] at hs
    split at hs <;> cases hs
    rename_i hpc
    have hc := h.cnt i
    refine h.upd (by simp [hpc]) (fun _ => rfl) ?_ (h.mono i)
    simpa [Sig.due, hpc, SPc.reading] using hc
  | sstep i =>
    simp only [World.step] at hs
    split at hs <;> cases hs
    rename_i hk
    exact cinv_sstep hi h hk

theorem cinv_runs {a : α} {m : World α} {es : List (Ev α)} (h : (World.init a).runs es = some m) :
    CInv m := by
  obtain ⟨os, h⟩ := runs_runE h
  refine (runE_inv (Inv := fun _ _ m => Inv m ∧ CInv m) ⟨inv_init a, ?_⟩
    (fun _ _ _ _ _ _ hi hs => ⟨inv_step hi.1 hs, cinv_step hi.1 hi.2 hs⟩) h).2
  exact ⟨List.nodup_nil, fun i k => (by cases k), fun w k => (by cases k), fun i _ => rfl,
    fun i => Nat.zero_le _, fun i => List.Pairwise.nil⟩

end Verif.MutConc
