import Verif.FlowProofs
import Verif.Props.SignalVecChain
import Verif.Props.SignalVecSignal

/-!
# `chain` and changes without effect

`chain` loses a wake-up if one of its inputs sends a `Replace` by nothing or a `Clear` while that input
is empty (C57).  Here: `map`, `enumerate`, `sort_by_cloned`, `map_signal` and `chain` itself do not send
such a change unless they get one.
-/

namespace Verif

variable {α β γ ι σ : Type}

/-- The diffs that come out of a run. -/
theorem run_feed {poll : Waker → σ → Option (Poll (Option (VecDiff β)) × σ)}
    {ok : VecDiff β → List β → Prop} (Live : σ → List β → Prop)
    (hstep : ∀ w s ys, Live s ys → ∃ r s', poll w s = some (r, s') ∧
      match r with
      | .ready (some d) => ok d ys ∧ ∃ ys', d.apply ys = some ys' ∧ Live s' ys'
      | .ready none => True
      | .pending => Live s' ys)
    {ws : List Waker} {s0 s : σ} {outs : List (Poll (Option (VecDiff β)))} {ys0 : List β}
    (h : run poll ws s0 = some (outs, s)) (h0 : Live s0 ys0) : Feed ok (items outs) ys0 := by
  induction ws generalizing s0 ys0 outs with
  | nil => cases h; trivial
  | cons w ws ih =>
    obtain ⟨r, s', hp, hr⟩ := hstep w s0 ys0 h0
    simp only [run, hp] at h
    match r with
    | .ready none => cases h; trivial
    | .ready (some d) =>
      simp only at h
      split at h
      · cases h
      · rename_i q hq
        cases h
        obtain ⟨hok, ys', hd, hl⟩ := hr
        exact ⟨hok, ys', hd, ih hq hl⟩
    | .pending =>
      simp only at h
      split at h
      · cases h
      · rename_i hq
        cases h
        rw [items_pending]
        exact ih hq hr

/-- Diffs are delivered one after the other. -/
theorem feed_iff {ok : VecDiff α → List α → Prop} {ds : List (VecDiff α)} {xs : List α} :
    Feed ok ds xs ↔ (∃ ys, replay ds xs = some ys) ∧
      ∀ a d b ys, ds = a ++ d :: b → replay a xs = some ys → ok d ys := by
  induction ds generalizing xs with
  | nil => simp [Feed, replay]
  | cons d ds ih =>
    simp only [Feed, ih]
    constructor
    · rintro ⟨h1, ys, h2, ⟨zs, h3⟩, h4⟩
      refine ⟨⟨zs, by rw [replay_cons_some h2]; exact h3⟩, ?_⟩
      intro a e b ws he hr
      cases a with
      | nil => cases he; cases hr; exact h1
      | cons x a =>
        cases he
        rw [replay_cons_some h2] at hr
        exact h4 a e b ws rfl hr
    · rintro ⟨⟨zs, h1⟩, h2⟩
      cases hd : d.apply xs with
      | none => simp [replay, hd] at h1
      | some ys =>
        rw [replay_cons_some hd] at h1
        exact ⟨h2 [] d ds xs rfl rfl, ys, rfl, ⟨zs, h1⟩, fun a e b ws he hr =>
          h2 (d :: a) e b ws (by simp [he]) (by rw [replay_cons_some hd]; exact hr)⟩

/-- `chain` does not send a vacuous change unless it gets one. -/
theorem chain_lively {u v t : Trace α} {s : VChain α}
    (h : run VChain.poll t.wakers (VChain.init u.answers v.answers) = some (t.answers, s))
    (hu : Feed (fun d xs => ¬ Vacuous d xs) u.diffs []) (hv : Feed (fun d xs => ¬ Vacuous d xs) v.diffs []) :
    Feed (fun d xs => ¬ Vacuous d xs) t.diffs [] := by
  refine run_feed (fun s zs => ∃ xs ys, ChainInv (fun d xs => ¬ Vacuous d xs) s xs ys zs) ?_ h
    ⟨[], [], Inp.ok_mk' _, Inp.ok_mk' _, valid_mk' hu, valid_mk' hv, ⟨rfl, rfl⟩, rfl,
      fun _ => lively_nil _⟩
  rintro w s zs ⟨xs, ys, hi⟩
  obtain ⟨r, s', xs', ys', g1, g2⟩ := VChain.step w hi
  refine ⟨r, s', g1, ?_⟩
  match r with
  | .ready (some d) =>
    obtain ⟨zs', g3, g4, g5⟩ := g2
    exact ⟨fun hn => g5 (fun d xs h ht => h (trivial_vacuous ht)) hn, zs', g3, xs', ys', g4⟩
  | .ready none => trivial
  | .pending => exact ⟨xs', ys', g2.1⟩

theorem map_lively {f : α → β} {u : Trace α} {t : Trace β}
    (h : StageRel (VMap.poll (logging f)) (VMap.init []) (·.signal) u t)
    (hu : Feed (fun d xs => ¬ Vacuous d xs) u.diffs []) :
    Feed (fun d xs => ¬ Vacuous d xs) t.diffs [] := by
  obtain ⟨s, h1, -⟩ := h
  refine run_feed (fun s ys => ¬ s.signal.ended ∧
    ∃ xs, Valid (fun d xs => ¬ Vacuous d xs) s.signal xs ∧ ys = xs.map f) ?_ h1
    ⟨not_ended_mk' _, [], valid_mk' hu, rfl⟩
  rintro w s ys ⟨hne, xs, hv, rfl⟩
  obtain ⟨r, src', xs', h1, h2, h3, h4⟩ := Src.vpoll_rule w s.signal xs hne hv
  match r with
  | .ready (some d) =>
    obtain ⟨hok, hd, he⟩ := h4
    refine ⟨.ready (some (d.map f)), ⟨src', s.st ++ d.payload⟩, ?_, ?_, xs'.map f, ?_, he, xs', h3, rfl⟩
    · simp [VMap.poll, h1, VecDiff.mapS_logging]
    · exact fun hn => hok ((trivial_map f).1 hn)
    · exact map_apply f hd
  | .ready none => exact ⟨.ready none, ⟨src', s.st⟩, by simp [VMap.poll, h1], trivial⟩
  | .pending =>
    obtain ⟨rfl, he, -⟩ := h4
    exact ⟨.pending, ⟨src', s.st⟩, by simp [VMap.poll, h1], he, xs', h3, rfl⟩

theorem enumChange_trivial {ms ms' : List Nat} {cells cells' : List (Option Nat)} {d : VecDiff α}
    {e : VecDiff (Nat × α)} (h : enumChange ms cells d = some (e, ms', cells')) {ys : List (Nat × α)}
    (ht : Vacuous e ys) : Vacuous d (ys.map (·.2)) := by
  obtain ⟨ht, rfl⟩ := ht
  refine ⟨?_, rfl⟩
  cases d with
  | replace vs =>
    left
    cases vs with
    | nil => rfl
    | cons v vs => cases h; simp [enumValues] at ht
  | clear => exact .inr rfl
  | _ =>
    simp only [enumChange] at h
    repeat' split at h
    all_goals first | (cases h; done) | (cases h; simp at ht)

theorem enumerate_lively {u : Trace α} {t : Trace (Nat × α)}
    (h : StageRel VEnumerate.poll VEnumerate.init (·.signal) u t)
    (hu : Feed (fun d xs => ¬ Vacuous d xs) u.diffs []) :
    Feed (fun d xs => ¬ Vacuous d xs) t.diffs [] := by
  obtain ⟨s, h1, -⟩ := h
  refine run_feed (fun s ys => ¬ s.signal.ended ∧
    Valid (fun d xs => ¬ Vacuous d xs) s.signal (ys.map (·.2)) ∧
      s.mutables = ys.map (·.1) ∧ CellInv (ys.map (·.1)) s.cells) ?_ h1
    ⟨not_ended_mk' _, valid_mk' hu, rfl, ⟨by simp, trivial, by simp [VEnumerate.init]⟩⟩
  rintro w s ys ⟨hne, g2, g3, g4⟩
  obtain ⟨r, src', xs', h1, h2, h3, h4⟩ := Src.vpoll_rule w s.signal _ hne g2
  match r with
  | .ready (some d) =>
    obtain ⟨hok, hd, he⟩ := h4
    obtain ⟨e, ys', cells', e1, e2, e3, e4, -⟩ := enumChange_spec g4 hd
    subst e3
    exact ⟨.ready (some e), ⟨src', ys'.map (·.1), cells'⟩, by simp [VEnumerate.poll, h1, g3, e1],
      fun ht => hok (enumChange_trivial e1 ht), ys', e2, he, h3, rfl, e4⟩
  | .ready none => exact ⟨.ready none, ⟨src', s.mutables, s.cells⟩, by simp [VEnumerate.poll, h1], trivial⟩
  | .pending =>
    obtain ⟨rfl, he, -⟩ := h4
    exact ⟨.pending, ⟨src', s.mutables, s.cells⟩, by simp [VEnumerate.poll, h1], he, h3, g3, g4⟩

theorem sort_lively {S : SliceFns} {cmp : α → α → Ordering} (hS : S.Lawful)
    (hp : TotalPreorder cmp) {u t : Trace α}
    (h : StageRel (VSort.poll S cmp) VSort.init (·.signal) u t)
    (hu : Feed (fun d xs => ¬ Vacuous d xs) u.diffs []) :
    Feed (fun d xs => ¬ Vacuous d xs) t.diffs [] := by
  obtain ⟨s, h1, -⟩ := h
  refine run_feed (fun (s : VSort α) zs => ¬ s.signal.ended ∧
    ∃ zs', Valid (fun d xs => ¬ Vacuous d xs) s.signal s.values ∧ SInv cmp s.values s.indexes ∧
      Out s.values s.indexes zs' ∧ replay s.pending.toList zs = some zs' ∧
      ∀ d ∈ s.pending, ¬ Whole d) ?_ h1
    ⟨not_ended_mk' _, [], valid_mk' hu, ⟨by simp [VSort.init], List.Pairwise.nil⟩, rfl, rfl,
      by simp [VSort.init]⟩
  rintro w ⟨pend, values, indexes, src⟩ zs ⟨hne, zs', hv, hi, ho, hrep, hw⟩
  simp only at hne hv hi ho hrep hw
  cases pend with
  | some d =>
    simp only [Option.toList_some, replay] at hrep
    cases hd : d.apply zs with
    | none => simp [hd] at hrep
    | some zs1 =>
      simp only [hd, Option.some.injEq] at hrep
      subst hrep
      refine ⟨.ready (some d), _, rfl, ?_, zs1, hd, hne, zs1, hv, hi, ho, rfl, by simp⟩
      rintro ⟨rfl | rfl, -⟩
      · exact hw _ rfl trivial
      · exact hw _ rfl trivial
  | none =>
    simp only [Option.toList_none, replay, Option.some.injEq] at hrep
    subst hrep
    obtain ⟨st, ⟨vs, is⟩, src', xs', g1, g2, g3, g4⟩ := Src.vloop_rule (w := w)
      (body := sortBody S cmp) (ok := fun d xs => ¬ Vacuous d xs)
      (fun s xs => s.1 = xs ∧ SInv cmp s.1 s.2 ∧ Out s.1 s.2 zs)
      (fun r s xs => s.1 = xs ∧ SInv cmp s.1 s.2 ∧ (∀ d ∈ r.2, ¬ Whole d) ∧ ¬ Vacuous r.1 zs ∧
        ∃ zs1 zs', Out s.1 s.2 zs' ∧
        r.1.apply zs = some zs1 ∧ replay r.2.toList zs1 = some zs')
      (by
        rintro ⟨vs, is⟩ xs d ys ⟨e, hi, ho⟩ hokd hd
        simp only at e hi ho
        subst e
        rcases sortBody_spec hS hp hi ho hd with ⟨is', e1, e2, e3⟩ |
          ⟨is', e, pend, zs1, zs', e1, e2, e3, e4, e5, e6⟩
        · rw [e1]; exact ⟨rfl, e2, e3⟩
        · have hret := sortBody_ret e1
          have hempty : ∀ {ys : List α} {is : List Nat}, SInv cmp ys is → Out ys is [] → ys = [] := by
            intro ys is h1 h2
            have hl : is = [] := List.length_eq_zero_iff.1 h2.length.symm
            subst hl
            cases ys with
            | nil => rfl
            | cons y ys => exact absurd ((h1.mem 0).2 (by simp)) (by simp)
          rw [e1]
          refine ⟨rfl, e2, fun d hd => (hret.2.1 d hd).1, fun ht => hokd ?_, zs1, zs', e3, e4, e6⟩
          obtain ⟨ht, rfl⟩ := ht
          have hwhole : Whole e ∧ zs1 = [] := by
            rcases ht with rfl | rfl
            · cases e4; exact ⟨trivial, rfl⟩
            · cases e4; exact ⟨trivial, rfl⟩
          obtain ⟨hwd, rfl⟩ := hret.1 hwhole.1
          rw [hwhole.2] at e6
          cases e6
          have hys := hempty e2 e3
          subst hys
          refine ⟨?_, hempty hi ho⟩
          match d, hwd with
          | .replace vs, _ => cases hd; exact .inl rfl
          | .clear, _ => exact .inr rfl)
      src (values, indexes) values hne hv ⟨rfl, hi, ho⟩
    match st with
    | .panic => exact g4.elim
    | .ret (d, p) =>
      obtain ⟨⟨rfl, a2, a3, a4, zs1, zs', a5, a6, a7⟩, a8⟩ := g4
      exact ⟨.ready (some d), ⟨p, vs, is, src'⟩, by simp [VSort.poll, g1], a4, zs1, a6, a8,
        zs', g3, a2, a5, a7, a3⟩
    | .ended => exact ⟨.ready none, ⟨none, vs, is, src'⟩, by simp [VSort.poll, g1], trivial⟩
    | .pending =>
      obtain ⟨⟨rfl, a2, a3⟩, a4, -⟩ := g4
      exact ⟨.pending, ⟨none, vs, is, src'⟩, by simp [VSort.poll, g1],
        a4, zs, g3, a2, a3, rfl, by simp⟩

theorem mapSignal_lively {g : ι → List (Poll (Option β))} (hg : Eager g) {u : Trace ι} {t : Trace β}
    {s : VMapSignal ι β}
    (h : run (VMapSignal.poll g) t.wakers (VMapSignal.init u.answers) = some (t.answers, s))
    (hu : Feed (fun d xs => ¬ Vacuous d xs) u.diffs []) :
    Feed (fun d xs => ¬ Vacuous d xs) t.diffs [] := by
  refine run_feed (fun s zs => ∃ ts, MapSignalInv (fun d xs => ¬ Vacuous d xs) g s ts zs) ?_ h
    ⟨[], Inp.ok_mk' _, valid_mk' hu, rfl, by simp [VMapSignal.init], ⟨[], rfl, rfl⟩,
      fun _ => lively_nil _⟩
  rintro w s zs ⟨ts, hi⟩
  obtain ⟨r, s', ts', g1, g2⟩ := VMapSignal.step hg w hi
  refine ⟨r, s', g1, ?_⟩
  match r with
  | .ready (some d) =>
    obtain ⟨zs', g3, g4, g5⟩ := g2
    exact ⟨fun hn => g5 (fun d xs h ht => h (trivial_vacuous ht)) hn, zs', g3, ts', g4⟩
  | .ready none => trivial
  | .pending => exact ⟨ts', g2.1⟩

end Verif
