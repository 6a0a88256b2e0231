import Verif.Props.Whole
import Verif.Props.PlainMap
import Verif.Props.SendsSwitch

/-!
# C102 and C103: `switch_signal_vec`, keys and entries
-/

namespace Verif

variable {α τ K V : Type}

/-! ## `switch_signal_vec` -/

theorem plainFrom_suffix {ds es : List (VecDiff α)} {zs ys : List α} (h : PlainFrom (ds ++ es) zs)
    (hr : replay ds zs = some ys) : PlainFrom es ys :=
  fun a d b xs he hx => h (ds ++ a) d b xs (by simp [he]) (replay_append_some hr hx)

/-- What is sent for one `SignalVec`, after which its list is shown. -/
theorem switch_one (g : τ → List (Poll (Option (VecDiff α)))) (f : τ × List (VecDiff α)) (shown : List α) {y : List α}
    (hy : replay (given g f) [] = some y) :
    replay (switchSays shown (atOnce (g f.1)) ++ f.2) shown = some y ∧
      (PlainFrom (given g f) [] → PlainFrom (switchSays shown (atOnce (g f.1)) ++ f.2) shown) := by
  cases shown with
  | nil => exact ⟨hy, fun h => h⟩
  | cons x xs =>
    unfold given at hy ⊢
    obtain ⟨r, hr⟩ := replay_prefix (by rw [hy]; rfl)
    have h2 : replay f.2 r = some y := by
      rw [replay_append, hr] at hy
      exact hy
    have hs : switchSays (x :: xs) (atOnce (g f.1)) = [.replace r] := by
      cases ha : atOnce (g f.1) with
      | none => rw [ha] at hr; cases hr; rfl
      | some d =>
        rw [ha] at hr
        simp only [Option.toList, replay] at hr
        cases hd : d.apply [] with
        | none => simp [hd] at hr
        | some z => simp only [hd, Option.some.injEq] at hr; simp [switchSays, hd, hr]
    rw [hs]
    refine ⟨by simpa [replay, VecDiff.apply] using h2, fun h => ?_⟩
    refine plainFrom_cons trivial fun ys hys => ?_
    cases hys
    exact plainFrom_suffix h hr

theorem switchSends_plain (g : τ → List (Poll (Option (VecDiff α)))) (hg : ∀ v, ∃ z, replay (items (g v)) [] = some z)
    (hp : ∀ v, PlainFrom (items (g v)) []) (fs : List (τ × List (VecDiff α)))
    (hf : ∀ f ∈ fs, given g f <+: items (g f.1)) (shown : List α) : PlainFrom (switchSends g shown fs) shown := by
  induction fs generalizing shown with
  | nil => exact plainFrom_nil _
  | cons f fs ih =>
    obtain ⟨t, ht⟩ := hf f (by simp)
    obtain ⟨z, hz⟩ := hg f.1
    rw [← ht] at hz
    obtain ⟨y, hy⟩ := replay_prefix (by rw [hz]; rfl)
    obtain ⟨h1, h2⟩ := switch_one g f shown hy
    have h3 := hp f.1
    rw [← ht] at h3
    simp only [switchSends, hy, Option.getD_some]
    exact plainFrom_append (h2 (plainFrom_prefix h3)) h1 (ih (fun f hf' => hf f (by simp [hf'])) y)

/-- **C102**, `switch_signal_vec`: if every `SignalVec` it may follow sends plain changes, so does it, however often it
switches. -/
theorem C102_switch (g : τ → List (Poll (Option (VecDiff α)))) (script : List (Poll (Option τ)))
    (hg : ∀ v, ∃ z, replay (items (g v)) [] = some z) (hp : ∀ v, PlainFrom (items (g v)) []) (ws : List Waker) :
    ∃ outs s, run (VSwitch.poll g) ws (VSwitch.init script) = some (outs, s) ∧ PlainFrom (items outs) [] := by
  obtain ⟨outs, s, fs, h1, -, -, h2, -, h3⟩ := C98_switch g script hg ws
  refine ⟨outs, s, h1, ?_⟩
  have h4 := switchSends_plain g hg hp fs h2 []
  rcases h3 with h3 | ⟨-, h3⟩
  · rw [h3]; exact h4
  · rw [← h3] at h4; exact plainFrom_prefix h4

theorem switchSays_whole (shown : List α) (o : Option (VecDiff α)) :
    replaces (switchSays shown o) ≤ max 1 (replaces o.toList) ∧ clearsIn (switchSays shown o) ≤ clearsIn o.toList ∧
      (shown = [] → replaces (switchSays shown o) = replaces o.toList) := by
  cases shown with
  | nil => exact ⟨Nat.le_max_right _ _, Nat.le_refl _, fun _ => rfl⟩
  | cons x xs =>
    refine ⟨Nat.le_trans ?_ (Nat.le_max_left _ _), ?_, fun h => by simp at h⟩ <;> cases o <;>
      simp [switchSays, replaces, clearsIn, VecDiff.isReplace, VecDiff.isClear]

theorem switchSends_whole (g : τ → List (Poll (Option (VecDiff α)))) (fs : List (τ × List (VecDiff α))) (shown : List α) :
    replaces (switchSends g shown fs) ≤ fs.length + (fs.map fun f => replaces (given g f)).sum ∧
    clearsIn (switchSends g shown fs) ≤ (fs.map fun f => clearsIn (given g f)).sum := by
  induction fs generalizing shown with
  | nil => simp [switchSends, replaces, clearsIn]
  | cons f fs ih =>
    obtain ⟨h1, h2, -⟩ := switchSays_whole shown (atOnce (g f.1))
    obtain ⟨h4, h5⟩ := ih ((replay (given g f) []).getD [])
    simp only [switchSends, replaces_append, clearsIn_append, List.map_cons, List.sum_cons, given, List.length_cons] at *
    omega

theorem switchSends_whole_nil (g : τ → List (Poll (Option (VecDiff α)))) (fs : List (τ × List (VecDiff α))) :
    replaces (switchSends g [] fs) ≤ (fs.length - 1) + (fs.map fun f => replaces (given g f)).sum := by
  cases fs with
  | nil => simp [switchSends, replaces]
  | cons f fs =>
    have h3 := (switchSays_whole [] (atOnce (g f.1))).2.2 rfl
    have h4 := (switchSends_whole g fs ((replay (given g f) []).getD [])).1
    simp only [switchSends, replaces_append, List.map_cons, List.sum_cons, given, List.length_cons] at *
    omega

/-- **C103**, `switch_signal_vec`: besides the `Replace`s of the `SignalVec`s that it followed it sends at most one for each
switch, none for the first, and it sends no `Clear` of its own. -/
theorem C103_switch (g : τ → List (Poll (Option (VecDiff α)))) (script : List (Poll (Option τ)))
    (hg : ∀ v, ∃ z, replay (items (g v)) [] = some z) (ws : List Waker) :
    ∃ outs s, ∃ fs : List (τ × List (VecDiff α)), run (VSwitch.poll g) ws (VSwitch.init script) = some (outs, s) ∧
      (fs.map (·.1)).Sublist s.signal.src.got ∧ (∀ f ∈ fs, f.2 <+: items (g f.1)) ∧
      replaces (items outs) ≤ (fs.length - 1) + (fs.map fun f => replaces f.2).sum ∧
      clearsIn (items outs) ≤ (fs.map fun f => clearsIn f.2).sum := by
  obtain ⟨outs, s, fs, h1, h2, -, h3, -, h4⟩ := C98_switch g script hg ws
  refine ⟨outs, s, fs.map fun f => (f.1, given g f), h1, by simpa [Function.comp_def] using h2, ?_, ?_⟩
  · intro f hf
    obtain ⟨e, he, rfl⟩ := List.mem_map.1 hf
    exact h3 e he
  · obtain ⟨-, h6⟩ := switchSends_whole g fs []
    have h5 := switchSends_whole_nil g fs
    simp only [List.length_map, List.map_map, Function.comp_def]
    rcases h4 with h4 | ⟨-, h4⟩
    · rw [h4]; exact ⟨h5, h6⟩
    · rw [← h4, replaces_append] at h5
      rw [← h4, clearsIn_append] at h6
      omega

/-- Three lists that only push: one `Replace` for each of the two switches. -/
example : ∃ s, run (VSwitch.poll fun n : Nat => [.ready (some (.push n)), .ready (some (.push (n + 1)))]) [0, 0, 0, 0]
      (VSwitch.init [.ready (some 1), .pending, .ready (some 5), .pending, .pending, .ready (some 8), .pending]) =
    some ([.ready (some (.push 1)), .ready (some (.replace [5])), .ready (some (.push 6)), .ready (some (.replace [8]))],
      s) :=
  ⟨_, rfl⟩

example : (∀ n : Nat, ∃ z, replay (items [.ready (some (.push n)), .ready (some (.push (n + 1)))]) [] = some z) ∧
    ∀ n : Nat, PlainFrom (items [.ready (some (.push n)), .ready (some (.push (n + 1)))]) [] :=
  ⟨fun _ => ⟨_, rfl⟩, fun n => plainFrom_always (by simp [items, Plain]) _⟩

/-! ## `signal_vec_keys` and `signal_vec_entries` -/

/-- `Replace`. -/
def MapDiff.isReplace : MapDiff K V → Bool
  | .replace _ => true
  | _ => false

/-- `Clear`. -/
def MapDiff.isClear : MapDiff K V → Bool
  | .clear => true
  | _ => false

section
variable [LinearOrder K]

/-- **C103**, `signal_vec_keys`: no more `Replace`s than the map sent, and no more `Clear`s. -/
theorem C103_keys (bs : List K → K → Except Nat Nat) (hbs : SearchOk bs)
    (script : List (Poll (Option (MapDiff K V))))
    (hwf : ∃ m, mreplay (items script) noKeys = some m) (hsort : ∀ d ∈ items script, Sorted d) (ws : List Waker) :
    ∃ outs s, run (MKeys.poll bs) ws (MKeys.init script) = some (outs, s) ∧
      replaces (items outs) ≤ s.signal.got.countP MapDiff.isReplace ∧
      clearsIn (items outs) ≤ s.signal.got.countP MapDiff.isClear := by
  obtain ⟨outs, s, h1, h2⟩ := C98_keys bs hbs script hwf hsort ws
  refine ⟨outs, s, h1, ?_⟩
  rw [h2]
  exact ⟨sends_count_le (fun x y d _ => by cases d <;> simp [keySays, VecDiff.isReplace, MapDiff.isReplace]) _ _,
    sends_count_le (fun x y d _ => by cases d <;> simp [keySays, VecDiff.isClear, MapDiff.isClear]) _ _⟩

/-- **C103**, `entries_cloned` and `signal_vec_entries`. -/
theorem C103_entries (bs : List K → K → Except Nat Nat) (hbs : SearchOk bs)
    (script : List (Poll (Option (MapDiff K V))))
    (hwf : ∃ m, mreplay (items script) noKeys = some m) (hsort : ∀ d ∈ items script, Sorted d) (ws : List Waker) :
    ∃ outs s, run (MEntries.poll bs) ws (MKeys.init script) = some (outs, s) ∧
      replaces (items outs) ≤ s.signal.got.countP MapDiff.isReplace ∧
      clearsIn (items outs) ≤ s.signal.got.countP MapDiff.isClear := by
  obtain ⟨outs, s, h1, h2⟩ := C98_entries bs hbs script hwf hsort ws
  refine ⟨outs, s, h1, ?_⟩
  rw [h2]
  exact ⟨sends_count_le (fun x y d _ => by cases d <;> simp [entrySays, VecDiff.isReplace, MapDiff.isReplace]) _ _,
    sends_count_le (fun x y d _ => by cases d <;> simp [entrySays, VecDiff.isClear, MapDiff.isClear]) _ _⟩

example : (∃ m, mreplay (items demoMap) noKeys = some m) ∧ (∀ d ∈ items demoMap, Sorted d) ∧
    SearchOk (linearSearch (K := Nat)) :=
  ⟨⟨_, rfl⟩, by
    intro d hd
    simp only [demoMap, items, List.mem_cons, List.not_mem_nil, or_false] at hd
    rcases hd with rfl | rfl | rfl | rfl | rfl
    · simp only [Sorted]; unfold Ascending; decide
    all_goals trivial, linearSearch_ok⟩

end

end Verif
