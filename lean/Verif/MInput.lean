import Verif.SignalMap
import Verif.BTree
import Verif.Polite

/-!
# Well-formed `MapDiff` histories, and rules for runs of combinators that emit `MapDiff`s
-/

namespace Verif

variable {K V W β σ ρ : Type} [DecidableEq K]

/-- Starting from contents `m`, the diffs are applicable one after the other, and each satisfies the
side condition `ok`. -/
def MFeed (ok : MapDiff K V → Prop) : List (MapDiff K V) → (K → Option V) → Prop
  | [], _ => True
  | d :: ds, m => ok d ∧ ∃ m', d.apply m = some m' ∧ MFeed ok ds m'

theorem mfeed_of_replay {ok : MapDiff K V → Prop} {ds : List (MapDiff K V)} {m m' : K → Option V}
    (h : mreplay ds m = some m') (hok : ∀ d ∈ ds, ok d) : MFeed ok ds m := by
  induction ds generalizing m with
  | nil => trivial
  | cons d ds ih =>
    obtain ⟨m1, h1, h2⟩ := mreplay_cons_some h
    exact ⟨hok d (by simp), m1, h1, ih h2 (fun x hx => hok x (by simp [hx]))⟩

/-- The state of a well-formed input: what it delivered so far describes the contents `m`, and what
it is going to deliver is applicable. -/
structure MValid (ok : MapDiff K V → Prop) (src : Src (Option (MapDiff K V)))
    (m : K → Option V) : Prop where
  now : mreplay src.got noKeys = some m
  rest : MFeed ok (items src.todo) m

theorem mvalid_mk' {ok : MapDiff K V → Prop} {script : List (Poll (Option (MapDiff K V)))}
    (h : MFeed ok (items script) noKeys) : MValid ok (Src.mk' script) noKeys := ⟨rfl, h⟩

theorem Src.mloop_rule {ok : MapDiff K V → Prop} {w : Waker}
    {body : σ → MapDiff K V → Ctl σ ρ}
    (P : σ → (K → Option V) → Prop) (Q : ρ → σ → (K → Option V) → Prop)
    (hbody : ∀ s m d m', P s m → ok d → d.apply m = some m' →
      match body s d with
      | .cont s' => P s' m'
      | .ret s' r => Q r s' m'
      | .panic => False)
    (src : Src (Option (MapDiff K V))) (s : σ) (m : K → Option V) (hne : ¬ src.ended)
    (hv : MValid ok src m) (h0 : P s m) :
    ∃ st s' src' m', src.loop w body s = (st, s', src') ∧ src'.fused ∧ MValid ok src' m' ∧
      match st with
      | .panic => False
      | .ret r => Q r s' m' ∧ ¬ src'.ended
      | .ended => P s' m' ∧ src'.ended
      | .pending => P s' m' ∧ ¬ src'.ended ∧ src'.armed w := by
  obtain ⟨st, s', src', h1, h2, h3⟩ := Src.loop_rule (w := w) (body := body)
    (fun s g t => ∃ m, mreplay g noKeys = some m ∧ MFeed ok t m ∧ P s m)
    (fun r s g t => ∃ m, mreplay g noKeys = some m ∧ MFeed ok t m ∧ Q r s m)
    (by
      rintro s g d t ⟨m, hg, ⟨hok, m', hd, ht⟩, hp⟩
      have := hbody s m d m' hp hok hd
      have hg' : mreplay (g ++ [d]) noKeys = some m' := by rw [mreplay_snoc hg, hd]
      cases hb : body s d with
      | cont s' => rw [hb] at this; exact ⟨m', hg', ht, this⟩
      | ret s' r => rw [hb] at this; exact ⟨m', hg', ht, this⟩
      | panic => rw [hb] at this; exact this)
    src s hne ⟨m, hv.now, hv.rest, h0⟩
  cases st with
  | panic => exact h3.elim
  | ret r =>
    obtain ⟨⟨m', a, b, c⟩, d⟩ := h3
    exact ⟨_, _, _, m', h1, h2, ⟨a, b⟩, c, d⟩
  | ended =>
    obtain ⟨⟨m', a, b, c⟩, d⟩ := h3
    exact ⟨_, _, _, m', h1, h2, ⟨a, b⟩, c, d⟩
  | pending =>
    obtain ⟨⟨m', a, b, c⟩, d⟩ := h3
    exact ⟨_, _, _, m', h1, h2, ⟨a, b⟩, c, d⟩

theorem Inp.mloop_rule {ok : MapDiff K V → Prop} {w : Waker}
    {body : σ → MapDiff K V → Ctl σ ρ}
    (P : σ → (K → Option V) → Prop) (Q : ρ → σ → (K → Option V) → Prop)
    (hbody : ∀ s m d m', P s m → ok d → d.apply m = some m' →
      match body s d with
      | .cont s' => P s' m'
      | .ret s' r => Q r s' m'
      | .panic => False)
    (i : Inp (Option (MapDiff K V))) (s : σ) (m : K → Option V) (hi : i.Ok)
    (hv : MValid ok i.src m) (h0 : P s m) :
    ∃ st s' i' m', i.loop w body s = (st, s', i') ∧ i'.Ok ∧ MValid ok i'.src m' ∧
      match st with
      | .panic => False
      | .ret r => Q r s' m' ∧ i'.alive = true
      | .ended => P s' m' ∧ i'.alive = false
      | .pending => P s' m' ∧ i'.alive = true ∧ i'.src.armed w := by
  obtain ⟨st, s', i', h1, h2, h3⟩ := Inp.loop_rule (w := w) (body := body)
    (fun s g t => ∃ m, mreplay g noKeys = some m ∧ MFeed ok t m ∧ P s m)
    (fun r s g t => ∃ m, mreplay g noKeys = some m ∧ MFeed ok t m ∧ Q r s m)
    (by
      rintro s g d t ⟨m, hg, ⟨hok, m', hd, ht⟩, hp⟩
      have := hbody s m d m' hp hok hd
      have hg' : mreplay (g ++ [d]) noKeys = some m' := by rw [mreplay_snoc hg, hd]
      cases hb : body s d with
      | cont s' => rw [hb] at this; exact ⟨m', hg', ht, this⟩
      | ret s' r => rw [hb] at this; exact ⟨m', hg', ht, this⟩
      | panic => rw [hb] at this; exact this)
    i s hi ⟨m, hv.now, hv.rest, h0⟩
  cases st with
  | panic => exact h3.elim
  | ret r =>
    obtain ⟨⟨m', a, b, c⟩, d⟩ := h3
    exact ⟨_, _, _, m', h1, h2, ⟨a, b⟩, c, d⟩
  | ended =>
    obtain ⟨⟨m', a, b, c⟩, d⟩ := h3
    exact ⟨_, _, _, m', h1, h2, ⟨a, b⟩, c, d⟩
  | pending =>
    obtain ⟨⟨m', a, b, c⟩, d⟩ := h3
    exact ⟨_, _, _, m', h1, h2, ⟨a, b⟩, c, d⟩

/-- One poll of a well-formed input. -/
theorem Src.mpoll_rule {ok : MapDiff K V → Prop} (w : Waker)
    (src : Src (Option (MapDiff K V))) (m : K → Option V) (hne : ¬ src.ended)
    (hv : MValid ok src m) :
    ∃ r src' m', src.poll w = (r, src') ∧ src'.fused ∧ MValid ok src' m' ∧
      src'.got = src.got ++ items [r] ∧
      match r with
      | .ready (some d) => ok d ∧ d.apply m = some m' ∧ ¬ src'.ended
      | .ready none => m' = m ∧ src'.ended
      | .pending => m' = m ∧ ¬ src'.ended ∧ src'.armed w := by
  obtain ⟨r, src', h1, h2, h3, h4, h5⟩ := Src.poll_rule w src hne
  have hn := hv.now
  have hr := hv.rest
  have h3' := h3
  rw [h4] at hr
  match r with
  | .pending =>
    simp only [items_pending, items_nil, List.append_nil, List.nil_append] at h3 hr
    exact ⟨_, _, m, h1, h2, ⟨by rw [h3]; exact hn, hr⟩, h3', rfl, h5⟩
  | .ready none =>
    simp only [items_none, items_nil, List.append_nil, List.nil_append] at h3 hr
    exact ⟨_, _, m, h1, h2, ⟨by rw [h3]; exact hn, hr⟩, h3', rfl, h5⟩
  | .ready (some d) =>
    simp only [items_some, items_nil, List.cons_append, List.nil_append] at h3 hr
    obtain ⟨hok, m', hd, ht⟩ := hr
    exact ⟨_, _, m', h1, h2, ⟨by rw [h3, mreplay_snoc hn, hd], ht⟩, h3', hok, hd, h5⟩

/-- Rule for a combinator that emits map diffs. -/
theorem map_run {poll : Waker → σ → Option (Poll (Option (MapDiff K β)) × σ)}
    (Live : σ → (K → Option β) → Prop) (Idle : Waker → σ → (K → Option β) → Prop)
    (Done : σ → (K → Option β) → Prop)
    (hidle : ∀ w s m, Idle w s m → Live s m)
    (hstep : ∀ w s m, Live s m → ∃ r s', poll w s = some (r, s') ∧
      match r with
      | .ready (some d) => ∃ m', d.apply m = some m' ∧ Live s' m'
      | .ready none => Done s' m
      | .pending => Idle w s' m)
    (ws : List Waker) (s0 : σ) (m0 : K → Option β) (h0 : Live s0 m0) :
    ∃ outs s m, run poll ws s0 = some (outs, s) ∧ mreplay (items outs) m0 = some m ∧
      (.ready none ∉ outs → Live s m) ∧
      (∀ w, ws.getLast? = some w → outs.getLast? = some .pending → Idle w s m) ∧
      (.ready none ∈ outs → Done s m) := by
  induction ws generalizing s0 m0 with
  | nil => exact ⟨[], s0, m0, rfl, rfl, fun _ => h0, by simp, by simp⟩
  | cons w ws ih =>
    obtain ⟨r, s', hp, hr⟩ := hstep w s0 m0 h0
    cases r with
    | pending =>
      obtain ⟨outs, s, m, h1, h2, h3, h4, h5⟩ := ih s' m0 (hidle _ _ _ hr)
      refine ⟨.pending :: outs, s, m, by simp [run, hp, h1], by simpa using h2, fun h => h3 (by simpa using h),
        fun w' hw hl => ?_, fun h => h5 (by simpa using h)⟩
      cases ws with
      | nil =>
        cases h1
        cases hw
        cases h2
        exact hr
      | cons w2 ws =>
        have hne := run_ne_nil' h1
        refine h4 w' (by simpa using hw) ?_
        cases outs with
        | nil => exact absurd rfl hne
        | cons o outs => simpa using hl
    | ready x =>
      cases x with
      | none =>
        exact ⟨[.ready none], s', m0, by simp [run, hp], rfl, by simp, by simp, fun _ => hr⟩
      | some d =>
        obtain ⟨m', hd, hl'⟩ := hr
        obtain ⟨outs, s, m, h1, h2, h3, h4, h5⟩ := ih s' m' hl'
        refine ⟨.ready (some d) :: outs, s, m, by simp [run, hp, h1], by simpa [mreplay, hd] using h2,
          fun h => h3 (by simpa using h), fun w' hw hl => ?_, fun h => h5 (by simpa using h)⟩
        cases ws with
        | nil =>
          cases h1
          simp at hl
        | cons w2 ws =>
          have hne := run_ne_nil' h1
          refine h4 w' (by simpa using hw) ?_
          cases outs with
          | nil => exact absurd rfl hne
          | cons o outs => simpa using hl

end Verif
