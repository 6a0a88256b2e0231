import Verif.TaskSettle

/-!
# Two-way bindings (C89): lemmas
-/

namespace Verif.Net

variable {α β γ : Type}

/-- After `set`, there is something new for every signal. -/
theorem set_dirty {x x' : Mut.World α} {S : Mut.Spec α} {a : α} {o : Mut.Obs α} (h : Mut.Sim x S)
    (hs : x.step (.set a) = some (o, x')) {i : Nat} (hi : i < x.cells) (ha : (x.cell i).alive = true) :
    (x'.cell i).changed = true := by
  obtain ⟨h1, -, -⟩ := h.step hs
  rw [h.cells] at hi
  have e : S.subs[i]? = some S.subs[i] := List.getElem?_eq_getElem hi
  have e1 := h.cell i _ e
  have e2 : (S.next (.set a)).subs[i]? = some (Mut.Sub.told true S.subs[i]) := by
    show (S.subs.map (Mut.Sub.told true))[i]? = _
    rw [List.getElem?_map, e]; rfl
  rw [h1.cell i _ e2]
  rw [e1] at ha
  have : S.subs[i].dropped = false := by simpa [Mut.Sub.cell] using ha
  simp [Mut.Sub.cell, Mut.Sub.told, this]

/-- A poll of `signal().map(f)` with something new gives a value. -/
theorem map_dirty {f : α → β} {m : Nat} {w : Waker} {W W' : Env α} {s s' : (Net.map f (.source m)).St}
    {r : Poll (Option β)} (h : (Net.map f (.source m)).Polls w W s r W' s')
    (hc : ¬ Clean (.map f (.source m)) W s) : r = .ready (some (f (W m).value)) := by
  obtain ⟨l, h1, h2, h3⟩ := h
  have hc : ((W m).cell s.2).changed = true := by simpa [Clean] using hc
  generalize s'.1 = q at h2 h3
  match l with
  | [] =>
    simp only [SMap.poll, give, Src.poll] at h2
    cases h2
    simp [Took] at h3
  | [z] =>
    obtain ⟨W1, s1, ⟨hz, -⟩, -⟩ := h1
    have : z = .ready (some (W m).value) := by
      rw [hz]
      simp [Mut.World.pollChange, Mut.ChangedWaker.isChanged, hc]
    subst this
    simp only [SMap.poll, give, Src.poll] at h2
    cases h2
    rfl
  | z :: y :: l =>
    exfalso
    simp only [Took] at h3
    match z with
    | .pending =>
      simp only [SMap.poll, give, Src.poll] at h2
      cases h2; simp at h3
    | .ready none =>
      simp only [SMap.poll, give, Src.poll] at h2
      cases h2; simp at h3
    | .ready (some _) =>
      simp only [SMap.poll, give, Src.poll] at h2
      cases h2; simp at h3

/-- If the callback is called and calls `set`, then there is something new for all other signals of the
target. -/
theorem feeds_dirty {t : Task α} {w : Waker} {W W' : Env α} {s s' : t.net.St} {l : List (Poll (Option α))}
    {last : Option α} (ht : t.test = none) (hi : Inv t.net W s last) (hok : Ok W) (h : t.Feeds w W s l W' s')
    (hl : items l ≠ []) {c : Nat} (hc : c < (W t.target).cells) (ha : ((W t.target).cell c).alive = true)
    (ho : ¬ t.net.Owns s t.target c) : ((W' t.target).cell c).changed = true := by
  induction l generalizing W s last with
  | nil => exact absurd rfl hl
  | cons r l ih =>
    have next : (∀ b, r ≠ .ready (some b)) → ∀ W1 s1, t.net.Polls w W s r W1 s1 → t.Feeds w W1 s1 l W' s' →
        ((W' t.target).cell c).changed = true := by
      intro hr W1 s1 h1 h2
      have P := polls_post hi hok h1
      refine ih P.inv P.frame.ok h2 (by rwa [items_not_some hr] at hl) (Nat.lt_of_lt_of_le hc (P.frame.cells _))
        (by rw [P.frame.cell _ c hc ho]; exact ha) fun h => ?_
      rcases P.own _ _ h with h | h
      · exact ho h
      · omega
    match r with
    | .pending => obtain ⟨W1, s1, h1, h2⟩ := h; exact next (by simp) W1 s1 h1 h2
    | .ready none => obtain ⟨W1, s1, h1, h2⟩ := h; exact next (by simp) W1 s1 h1 h2
    | .ready (some a) =>
      obtain ⟨W1, s1, o, x, h1, hx, h2⟩ := h
      have P := polls_post hi hok h1
      have hx' : (W1 t.target).step (.set a) = some (o, x) := by
        unfold Task.write at hx
        rw [ht] at hx; exact hx
      obtain ⟨S, hS⟩ := P.frame.ok t.target
      have hc1 : c < (W1 t.target).cells := Nat.lt_of_lt_of_le hc (P.frame.cells _)
      have ha1 : ((W1 t.target).cell c).alive = true := by rw [P.frame.cell _ c hc ho]; exact ha
      have hd := set_dirty hS hx' hc1 ha1
      have I1 : Inv (.source t.target) W1 (c : Nat) (some (W1 t.target).value) := ⟨hc1, ha1, fun _ => rfl⟩
      have E := sees_env I1 P.frame.ok (write_foreign (t := t) a) hx
      have I2 := (sees_env P.inv P.frame.ok (write_foreign a) hx).inv _ P.inv
      have F := feeds_fed I2 (ok_env P.frame.ok hx) h2
      have V := F.sees (.source t.target) (c : Nat) _ (E.inv _ I1) fun m i hm hm' => by
        obtain ⟨rfl, rfl⟩ := hm
        rcases P.own _ _ hm' with h | h
        · exact ho h
        · omega
      cases hh : ((W' t.target).cell c).changed with
      | true => rfl
      | false =>
        have hq : ((W1.put t.target x t.target).cell c).changed = false := V.clean hh
        rw [put_same, hd] at hq
        cases hq

/-- A poll of a task that gets something new from `signal().map(f)` calls the callback. -/
theorem feeds_item {f : α → α} {m k : Nat} {e : Option (α → α → Bool)} {w : Waker} {W W' : Env α} {s s' : (Net.map f (.source m)).St}
    {l : List (Poll (Option α))} (h : (Task.mk (.map f (.source m)) k e).Feeds w W s l W' s')
    (hc : ¬ Clean (.map f (.source m)) W s) (hl : l ≠ []) : items l ≠ [] := by
  match l with
  | [] => exact absurd rfl hl
  | .pending :: l => obtain ⟨W1, s1, h1, -⟩ := h; cases map_dirty h1 hc
  | .ready none :: l => obtain ⟨W1, s1, h1, -⟩ := h; cases map_dirty h1 hc
  | .ready (some a) :: l => simp [items]

/-- A poll of a task that sets what it reads never returns. -/
theorem self_feeds {f : α → α} {m : Nat} {w : Waker} {W W' : Env α} {s s' : (Net.map f (.source m)).St}
    {l : List (Poll (Option α))} {last : Option α} (hi : Inv (.map f (.source m)) W s last) (hok : Ok W)
    (h : (Task.mk (.map f (.source m)) m none).Feeds w W s l W' s')
    (hc : ¬ Clean (.map f (.source m)) W s) : ∀ r, l.getLast? = some r → ∃ a, r = .ready (some a) := by
  induction l generalizing W s last with
  | nil => simp
  | cons r l ih =>
    match r with
    | .pending => obtain ⟨W1, s1, h1, -⟩ := h; cases map_dirty h1 hc
    | .ready none => obtain ⟨W1, s1, h1, -⟩ := h; cases map_dirty h1 hc
    | .ready (some a) =>
      obtain ⟨W1, s1, o, x, h1, hx, h2⟩ := h
      have P := polls_post hi hok h1
      have I2 := (sees_env P.inv P.frame.ok (write_foreign a) hx).inv _ P.inv
      obtain ⟨S, hS⟩ := P.frame.ok m
      have ow := own_lt (m := m) (i := s1.2) P.inv ⟨rfl, rfl⟩
      have hd := set_dirty hS hx ow.1 ow.2
      cases l with
      | nil => simp
      | cons b l =>
        rw [List.getLast?_cons_cons]
        refine ih I2 (ok_env P.frame.ok hx) h2 fun hc' => ?_
        have hq : ((W1.put m x m).cell s1.2).changed = false := hc'
        rw [put_same, hd] at hq
        cases hq

/-- A poll of a task for which there is nothing new calls nobody. -/
theorem clean_feeds {t : Task α} {w : Waker} {l : List (Poll (Option α))} {W W' : Env α} {s s' : t.net.St}
    {last : Option α} (hi : Inv t.net W s last) (hok : Ok W) (hc : Clean t.net W s) (h : t.Feeds w W s l W' s') :
    (∀ m, (W' m).woken = (W m).woken) ∧ ∀ m, (W' m).value = (W m).value := by
  induction l generalizing W s last with
  | nil => obtain ⟨rfl, -⟩ := h; exact ⟨fun _ => rfl, fun _ => rfl⟩
  | cons r l ih =>
    have next : ∀ W1 s1, t.net.Polls w W s r W1 s1 → t.Feeds w W1 s1 l W' s' →
        (∀ m, (W' m).woken = (W m).woken) ∧ ∀ m, (W' m).value = (W m).value := fun W1 s1 h1 h2 => by
      have P := polls_post hi hok h1
      obtain ⟨k1, k2⟩ := ih P.inv P.frame.ok P.clean h2
      exact ⟨fun m => (k1 m).trans (P.frame.woken m), fun m => (k2 m).trans (P.frame.value m)⟩
    match r with
    | .pending => obtain ⟨W1, s1, h1, h2⟩ := h; exact next W1 s1 h1 h2
    | .ready none => obtain ⟨W1, s1, h1, h2⟩ := h; exact next W1 s1 h1 h2
    | .ready (some a) =>
      obtain ⟨W1, s1, o, x, h1, -⟩ := h
      exact absurd rfl ((polls_post hi hok h1).quiet hc a)

/-- If the callback calls `set_neq`, the task does not read its target, and the value of the target stays
the same, then nobody is woken. -/
theorem still_quiet {t : Task α} {w : Waker} {W W' : Env α} {s s' : t.net.St} {l : List (Poll (Option α))}
    {last : Option α} {f : α → α → Bool} (ht : t.test = some f) (hf : ∀ a b, f a b = true → a ≠ b)
    (hn : ¬ t.net.Reads t.target) (hi : Inv t.net W s last) (hok : Ok W)
    (h : t.Feeds w W s l W' s') : (∀ m, (W' m).woken = (W m).woken) ∨ (W' t.target).value ≠ (W t.target).value := by
  match l with
  | [] => obtain ⟨rfl, -⟩ := h; exact .inl fun _ => rfl
  | .pending :: l =>
    obtain ⟨W1, s1, h1, h2⟩ := h
    have P := polls_post hi hok h1
    exact .inl fun m => ((clean_feeds P.inv P.frame.ok P.clean h2).1 m).trans (P.frame.woken m)
  | .ready none :: l =>
    obtain ⟨W1, s1, h1, h2⟩ := h
    have P := polls_post hi hok h1
    exact .inl fun m => ((clean_feeds P.inv P.frame.ok P.clean h2).1 m).trans (P.frame.woken m)
  | .ready (some a) :: l =>
    obtain ⟨W1, s1, o, x, h1, hx, h2⟩ := h
    have P := polls_post hi hok h1
    have C2 : Clean t.net (W1.put t.target x) s1 := clean_reads (fun m hm => put_other _ _ fun h => hn (h ▸ hm))
      P.clean
    obtain ⟨k1, k2⟩ := clean_feeds ((sees_env P.inv P.frame.ok (write_foreign a) hx).inv _ P.inv)
      (ok_env P.frame.ok hx) C2 h2
    have hx' : (W1 t.target).step (.setIf a f) = some (o, x) := by
      unfold Task.write at hx
      rw [ht] at hx; exact hx
    obtain ⟨S, hS⟩ := P.frame.ok t.target
    obtain ⟨j1, -, j2⟩ := hS.step hx'
    cases hv : f S.value a with
    | true =>
      refine .inr ?_
      rw [k2, put_same, j1.value, ← P.frame.value, hS.value]
      simp only [Mut.Spec.next, Mut.Ev.newValue, hv, if_true]
      exact (hf _ _ hv).symm
    | false =>
      refine .inl fun m => ?_
      rw [k1]
      by_cases hm : m = t.target
      · subst hm
        rw [put_same, j2, ← P.frame.woken]
        simp [Mut.Spec.wakes, Mut.Ev.notifies, hv]
      · rw [put_other _ _ hm, P.frame.woken]

/-- A drop does not change the value. -/
theorem drop_value {W : Env α} {k : Nat} {o : Mut.Obs α} {x : Mut.World α} (hok : Ok W)
    (hx : (W k).step .drop = some (o, x)) (m : Nat) : (W.put k x m).value = (W m).value := by
  by_cases hm : m = k
  · subst hm
    obtain ⟨S, hS⟩ := hok m
    rw [put_same, (hS.step hx).1.value, hS.value]; rfl
  · rw [put_other _ _ hm]

theorem clean_poll {t : Task α} {w : Waker} {d : Poll Unit} {W W' : Env α} {s s' : t.St}
    {last : Option α} (hi : Inv t.net W s.signal last) (hok : Ok W) (hc : Clean t.net W s.signal)
    (h : t.Polls w W s d W' s') (m : Nat) : (W' m).value = (W m).value := by
  obtain ⟨l, W1, h1, -, -, h2, h3⟩ := h
  have k := (clean_feeds hi hok hc h1).2
  match d with
  | .pending => rw [h2 rfl]; exact k m
  | .ready () =>
    obtain ⟨o, x, hx, rfl⟩ := h3 rfl
    rw [drop_value (feeds_fed hi hok h1).ok hx]; exact k m

theorem still_poll {t : Task α} {w : Waker} {W W' : Env α} {s s' : t.St} {last : Option α}
    {f : α → α → Bool} (ht : t.test = some f) (hf : ∀ a b, f a b = true → a ≠ b)
    (hn : ¬ t.net.Reads t.target) (hi : Inv t.net W s.signal last) (hok : Ok W)
    (h : t.Polls w W s .pending W' s') :
    (∀ m, (W' m).woken = (W m).woken) ∨ (W' t.target).value ≠ (W t.target).value := by
  obtain ⟨l, W1, h1, -, -, h2, -⟩ := h
  rw [h2 rfl]
  exact still_quiet ht hf hn hi hok h1

theorem set_poll {f : α → α} {m k : Nat} {w : Waker} {d : Poll Unit} {W W' : Env α}
    {s s' : (Task.mk (.map f (.source m)) k none).St} {last : Option α}
    (hi : Inv (.map f (.source m)) W s.signal last) (hok : Ok W) (h0 : s.each.future = none)
    (hc : ¬ Clean (.map f (.source m)) W s.signal) (h : (Task.mk (.map f (.source m)) k none).Polls w W s d W' s')
    {c : Nat} (hck : c < (W k).cells) (ha : ((W k).cell c).alive = true)
    (ho : ¬ (Net.map f (.source m)).Owns s.signal k c) : ((W' k).cell c).changed = true := by
  obtain ⟨l, W1, h1, h2, h3, h4, h5⟩ := h
  obtain ⟨-, -, hl⟩ := each_took h0 h2 h3
  have hl : l ≠ [] := by rintro rfl; cases hl
  have F := feeds_fed (t := ⟨.map f (.source m), k, none⟩) hi hok h1
  have key := feeds_dirty (t := ⟨.map f (.source m), k, none⟩) rfl hi hok h1 (feeds_item h1 hc hl) hck ha ho
  match d with
  | .pending => rw [h4 rfl]; exact key
  | .ready () =>
    obtain ⟨o, x, hx, rfl⟩ := h5 rfl
    have I0 : Inv (.source k) W (c : Nat) (some (W k).value) := ⟨hck, ha, fun _ => rfl⟩
    have V := F.sees (.source k) (c : Nat) _ I0 fun m i hm hm' => by
      obtain ⟨rfl, rfl⟩ := hm; exact ho hm'
    have E := sees_env (V.inv _ I0) F.ok (drop_foreign (m := k)) hx
    cases hh : ((W1.put k x k).cell c).changed with
    | true => rfl
    | false =>
      have : ((W1 k).cell c).changed = false := E.clean hh
      rw [key] at this; cases this

/-- After a poll of a task that got something new, the target has the value of the expression. -/
theorem dirty_poll {f : α → α} {m k : Nat} {e : Option (α → α → Bool)} {w : Waker} {d : Poll Unit}
    {W W' : Env α} {s s' : (Task.mk (.map f (.source m)) k e).St} {last : Option α}
    (hL : (Task.mk (.map f (.source m)) k e).Lawful) (hm : m ≠ k)
    (hi : Inv (.map f (.source m)) W s.signal last) (hok : Ok W) (h0 : s.each.future = none)
    (hc : ¬ Clean (.map f (.source m)) W s.signal) (h : (Task.mk (.map f (.source m)) k e).Polls w W s d W' s') :
    (W' k).value = f (W m).value := by
  obtain ⟨l, W1, h1, h2, h3, h4, h5⟩ := h
  obtain ⟨-, -, hl⟩ := each_took h0 h2 h3
  have hn : l ≠ [] := by rintro rfl; cases hl
  have F := feeds_fed (t := ⟨.map f (.source m), k, e⟩) hi hok h1
  have hit := feeds_item h1 hc hn
  have cl : Clean (.map f (.source m)) W1 s'.signal := by
    match d with
    | .pending => exact armed_clean (F.pend hl).1
    | .ready () => exact armed_clean (w := 0) (dead_armed (F.ended hl))
  have hd := clean_den F.inv cl
  have hv := F.mine hL
  simp only at hv hd
  rw [foldl_upd] at hd
  have key : (W1 k).value = f (W m).value := by
    cases hg : (items l).getLast? with
    | none => exact absurd (List.getLast?_eq_none_iff.1 hg) hit
    | some a =>
      rw [hg] at hd hv
      cases hd
      rw [hv]
      show f (W1 m).value = _
      rw [F.value m hm]
  match d with
  | .pending => rw [h4 rfl]; exact key
  | .ready () =>
    obtain ⟨o, x, hx, rfl⟩ := h5 rfl
    rw [drop_value F.ok hx]; exact key

end Verif.Net
