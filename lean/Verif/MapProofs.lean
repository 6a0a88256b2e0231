import Verif.MInput
import Verif.SignalVec1Spec
import Verif.MapSignalProofs

/-!
# Proofs about the `SignalMap` combinators
-/

namespace Verif

variable {K V W β κ : Type}

/-! ## `map_value` -/

theorem mapEntriesS_logging (f : V → W) (k : List V) (l : List (K × V)) :
    mapEntriesS (logging f) k l = (l.map fun e => (e.1, f e.2), k ++ l.map (·.2)) := by
  induction l generalizing k with
  | nil => simp [mapEntriesS]
  | cons a l ih => simp [mapEntriesS, logging, ih]

theorem MapDiff.mapS_logging (f : V → W) (k : List V) (d : MapDiff K V) :
    d.mapS (logging f) k = (d.map f, k ++ d.payload) := by
  cases d <;> simp [MapDiff.mapS, MapDiff.map, MapDiff.payload, mapEntriesS_logging, logging]

/-! ## `key_cloned` -/

section
variable [DecidableEq K]

theorem findEntry_eq (key : K) (es : List (K × V)) : findEntry key es = mapOf es key := by
  induction es with
  | nil => rfl
  | cons e es ih =>
    simp only [findEntry, List.find?_cons, mapOf]
    by_cases h : e.1 = key
    · simp [h]
    · simp only [h, decide_false, ↓reduceIte]; exact ih

/-- What `changed` means: the last change of the key since `m0`. -/
def WatchInv (key : K) (m0 : K → Option V) (changed : Option (Option V)) (m : K → Option V) : Prop :=
  match changed with
  | some v => v = m key
  | none => m key = m0 key

theorem watchBody_spec (key : K) (m0 : K → Option V) (changed : Option (Option V))
    (m m' : K → Option V) (d : MapDiff K V) (h : WatchInv key m0 changed m)
    (hd : d.apply m = some m') :
    ∃ changed', watchBody key changed d = .cont changed' ∧ WatchInv key m0 changed' m' := by
  have same : m' key = m key → WatchInv key m0 changed m' := by
    intro e
    cases changed with
    | none => exact e.trans h
    | some v => exact Eq.trans h e.symm
  cases d with
  | replace es =>
    simp only [MapDiff.apply] at hd
    split at hd <;> cases hd
    exact ⟨_, rfl, findEntry_eq key es⟩
  | insert k v =>
    simp only [MapDiff.apply] at hd
    split at hd <;> cases hd
    refine ⟨_, rfl, ?_⟩
    by_cases hk : k = key
    · subst hk; simp [WatchInv, upd]
    · simp only [hk, ↓reduceIte]; exact same (by simp [upd, Ne.symm hk])
  | update k v =>
    simp only [MapDiff.apply] at hd
    split at hd <;> cases hd
    refine ⟨_, rfl, ?_⟩
    by_cases hk : k = key
    · subst hk; simp [WatchInv, upd]
    · simp only [hk, ↓reduceIte]; exact same (by simp [upd, Ne.symm hk])
  | remove k =>
    simp only [MapDiff.apply] at hd
    split at hd <;> cases hd
    refine ⟨_, rfl, ?_⟩
    by_cases hk : k = key
    · subst hk; simp [WatchInv, upd]
    · simp only [hk, ↓reduceIte]; exact same (by simp [upd, Ne.symm hk])
  | clear =>
    cases hd
    exact ⟨_, rfl, rfl⟩

end

/-! ## `signal_vec_keys`, entries -/

section
variable [LinearOrder K]

/-- What the documentation of `slice::binary_search` promises for a sorted slice without
duplicates: `Ok` of the index of the element, or `Err` of the index where it could be inserted. -/
structure SearchOk (bs : List K → K → Except Nat Nat) : Prop where
  found : ∀ (l m : List K) (key : K), (∀ x ∈ l, x < key) → (∀ x ∈ m, key < x) →
    bs (l ++ key :: m) key = .ok l.length
  missing : ∀ (l m : List K) (key : K), (∀ x ∈ l, x < key) → (∀ x ∈ m, key < x) →
    bs (l ++ m) key = .error l.length

theorem split_absent {es : List (K × V)} (h : Ascending es) {key : K} (hk : mapOf es key = none)
    (v : V) :
    ∃ p q, es = p ++ q ∧ (∀ e ∈ p, e.1 < key) ∧ (∀ e ∈ q, key < e.1) ∧
      (bInsert key v es).2 = p ++ (key, v) :: q := by
  induction es with
  | nil => exact ⟨[], [], rfl, by simp, by simp, rfl⟩
  | cons e es ih =>
    have h' := List.pairwise_cons.1 h
    have hne : e.1 ≠ key := by
      rintro rfl; simp [mapOf] at hk
    simp only [mapOf, hne, ↓reduceIte] at hk
    simp only [bInsert]
    split
    · rename_i hlt
      refine ⟨[], e :: es, rfl, by simp, ?_, rfl⟩
      intro x hx
      rcases List.mem_cons.1 hx with rfl | hx
      · exact hlt
      · exact lt_trans hlt (h'.1 x hx)
    · rename_i hlt
      have hgt : e.1 < key := lt_of_le_of_ne (le_of_not_gt hlt) hne
      simp only [Ne.symm hne, ↓reduceIte]
      obtain ⟨p, q, h1, h2, h3, h4⟩ := ih h'.2 hk
      refine ⟨e :: p, q, by simp [h1], ?_, h3, by simp [h4]⟩
      intro x hx
      rcases List.mem_cons.1 hx with rfl | hx
      · exact hgt
      · exact h2 x hx

theorem split_present {es : List (K × V)} (h : Ascending es) {key : K} {v : V}
    (hk : mapOf es key = some v) :
    ∃ p q, es = p ++ (key, v) :: q ∧ (∀ e ∈ p, e.1 < key) ∧ (∀ e ∈ q, key < e.1) ∧
      (∀ v', (bInsert key v' es).2 = p ++ (key, v') :: q) ∧ (bRemove key es).2 = p ++ q := by
  induction es with
  | nil => simp [mapOf] at hk
  | cons e es ih =>
    have h' := List.pairwise_cons.1 h
    by_cases he : e.1 = key
    · subst he
      simp only [mapOf, ↓reduceIte, Option.some.injEq] at hk
      subst hk
      exact ⟨[], es, rfl, by simp, h'.1, by simp [bInsert, lt_irrefl], by simp [bRemove, lt_irrefl]⟩
    · simp only [mapOf, he, ↓reduceIte] at hk
      obtain ⟨p, q, h1, h2, h3, h4, h5⟩ := ih h'.2 hk
      have hmem : (key, v) ∈ es := mapOf_mem hk
      have hgt : e.1 < key := h'.1 _ hmem
      refine ⟨e :: p, q, by simp [h1], ?_, h3, ?_, ?_⟩
      · intro x hx
        rcases List.mem_cons.1 hx with rfl | hx
        · exact hgt
        · exact h2 x hx
      · intro v'
        simp [bInsert, not_lt_of_gt hgt, Ne.symm he, h4]
      · simp [bRemove, not_lt_of_gt hgt, Ne.symm he, h5]

/-- `keys` are the keys of the ordered map with contents `m`. -/
def KeysOf (keys : List K) (m : K → Option V) : Prop :=
  ∃ es : List (K × V), Ascending es ∧ mapOf es = m ∧ keys = es.map (·.1)

theorem entriesChange_spec {bs : List K → K → Except Nat Nat} (hbs : SearchOk bs)
    {es : List (K × V)} (hes : Ascending es) {d : MapDiff K V} {m' : K → Option V} (hs : Sorted d)
    (hd : d.apply (mapOf es) = some m') :
    ∃ e es', entriesChange bs (es.map (·.1)) d = some (e, es'.map (·.1)) ∧ Ascending es' ∧
      mapOf es' = m' ∧ e.apply es = some es' := by
  have lt1 : ∀ {p : List (K × V)} {key : K}, (∀ e ∈ p, e.1 < key) → ∀ x ∈ p.map (·.1), x < key := by
    intro p key h x hx
    obtain ⟨e, he, rfl⟩ := List.mem_map.1 hx
    exact h e he
  have lt2 : ∀ {p : List (K × V)} {key : K}, (∀ e ∈ p, key < e.1) → ∀ x ∈ p.map (·.1), key < x := by
    intro p key h x hx
    obtain ⟨e, he, rfl⟩ := List.mem_map.1 hx
    exact h e he
  cases d with
  | replace entries =>
    simp only [MapDiff.apply] at hd
    split at hd <;> cases hd
    exact ⟨_, entries, rfl, hs, rfl, rfl⟩
  | insert key value =>
    simp only [MapDiff.apply] at hd
    split at hd <;> cases hd
    rename_i hn
    have hn : mapOf es key = none := by simpa using hn
    obtain ⟨p, q, h1, h2, h3, h4⟩ := split_absent hes hn value
    have hi := bInsert_spec hes key value
    rw [h4] at hi
    have hsr := hbs.missing (p.map (·.1)) (q.map (·.1)) key (lt1 h2) (lt2 h3)
    refine ⟨.insertAt p.length (key, value), p ++ (key, value) :: q, ?_, hi.2.1, hi.2.2.1, ?_⟩
    · subst h1
      simp only [entriesChange, List.map_append, hsr, List.length_map]
      have := vInsert_append (p.map (·.1)) (q.map (·.1)) key
      simp only [List.length_map] at this
      simp [this]
    · subst h1
      exact vInsert_append p q (key, value)
  | update key value =>
    simp only [MapDiff.apply] at hd
    split at hd <;> cases hd
    rename_i hn
    obtain ⟨v, hv⟩ := Option.isSome_iff_exists.1 hn
    obtain ⟨p, q, h1, h2, h3, h4, h5⟩ := split_present hes hv
    have hi := bInsert_spec hes key value
    rw [h4] at hi
    have hsr := hbs.found (p.map (·.1)) (q.map (·.1)) key (lt1 h2) (lt2 h3)
    refine ⟨.updateAt p.length (key, value), p ++ (key, value) :: q, ?_, hi.2.1, hi.2.2.1, ?_⟩
    · subst h1
      simp [entriesChange, hsr]
    · subst h1
      exact vSet_append p q _ _
  | remove key =>
    simp only [MapDiff.apply] at hd
    split at hd <;> cases hd
    rename_i hn
    obtain ⟨v, hv⟩ := Option.isSome_iff_exists.1 hn
    obtain ⟨p, q, h1, h2, h3, h4, h5⟩ := split_present hes hv
    have hi := bRemove_spec hes key
    rw [h5] at hi
    have hsr := hbs.found (p.map (·.1)) (q.map (·.1)) key (lt1 h2) (lt2 h3)
    refine ⟨.removeAt p.length, p ++ q, ?_, hi.2.1, hi.2.2.1, ?_⟩
    · subst h1
      have := vRemove_append (p.map (·.1)) (q.map (·.1)) key
      simp only [List.length_map] at this
      simp [entriesChange, hsr, this]
    · subst h1
      simp [VecDiff.apply, vRemove_append]
  | clear =>
    cases hd
    exact ⟨_, [], rfl, List.Pairwise.nil, rfl, rfl⟩

/-- The keys part of the above. -/
theorem keysBody_spec {bs : List K → K → Except Nat Nat} (hbs : SearchOk bs)
    {es : List (K × V)} (hes : Ascending es) {d : MapDiff K V} {m' : K → Option V} (hs : Sorted d)
    (hd : d.apply (mapOf es) = some m') :
    ∃ es', Ascending es' ∧ mapOf es' = m' ∧
      ((∃ e, keysBody bs (es.map (·.1)) d = .ret (es'.map (·.1)) e ∧
        e.apply (es.map (·.1)) = some (es'.map (·.1))) ∨
      (keysBody bs (es.map (·.1)) d = .cont (es'.map (·.1)) ∧ es'.map (·.1) = es.map (·.1))) := by
  obtain ⟨e, es', h1, h2, h3, h4⟩ := entriesChange_spec hbs hes hs hd
  have h5 := map_apply (·.1) h4
  refine ⟨es', h2, h3, ?_⟩
  cases d with
  | replace entries =>
    simp only [entriesChange, Option.some.injEq, Prod.mk.injEq] at h1
    obtain ⟨rfl, h1⟩ := h1
    exact .inl ⟨.replace (es'.map (·.1)), by simp only [keysBody, h1], rfl⟩
  | insert key value =>
    simp only [entriesChange] at h1
    split at h1
    · cases h1
    · rename_i index hb
      split at h1
      · cases h1
      · rename_i keys hv
        simp only [Option.some.injEq, Prod.mk.injEq] at h1
        obtain ⟨rfl, h1⟩ := h1
        refine .inl ⟨.insertAt index key, ?_, h5⟩
        simp only [keysBody, hb, hv, h1]
  | update key value =>
    simp only [entriesChange] at h1
    split at h1
    · cases h1
    · rename_i index hb
      simp only [Option.some.injEq, Prod.mk.injEq] at h1
      obtain ⟨rfl, h1⟩ := h1
      exact .inr ⟨by simp only [keysBody, h1], h1.symm⟩
  | remove key =>
    simp only [entriesChange] at h1
    split at h1
    · cases h1
    · rename_i index hb
      split at h1
      · cases h1
      · rename_i a keys hv
        simp only [Option.some.injEq, Prod.mk.injEq] at h1
        obtain ⟨rfl, h1⟩ := h1
        refine .inl ⟨.removeAt index, ?_, h5⟩
        simp only [keysBody, hb, hv, h1]
  | clear =>
    simp only [entriesChange, Option.some.injEq, Prod.mk.injEq] at h1
    obtain ⟨rfl, h1⟩ := h1
    exact .inl ⟨.clear, by simp only [keysBody, h1], h5⟩

/-! ## `map_value_signal` -/

/-- The contents described by the inner signals. -/
def tagOf (signals : List (K × MState V β)) (k : K) : Option V := (mapOf signals k).map (·.tag)

/-- The latest values of the inner signals. -/
def latestOf (signals : List (K × MState V β)) (k : K) : Option β :=
  (mapOf signals k).bind (·.latest)

/-- Every inner signal has produced a value. -/
structure SigOk (g : V → List (Poll (Option β))) (signals : List (K × MState V β)) : Prop where
  asc : Ascending signals
  ok : ∀ e ∈ signals, MOk g e.2 ∧ ∃ b, e.2.latest = some b

theorem SigOk.latest_isSome {g : V → List (Poll (Option β))} {signals : List (K × MState V β)}
    (h : SigOk g signals) (k : K) : (latestOf signals k).isSome = (tagOf signals k).isSome := by
  unfold latestOf tagOf
  cases hm : mapOf signals k with
  | none => rfl
  | some x =>
    obtain ⟨-, b, hb⟩ := h.ok (k, x) (mapOf_mem hm)
    simp [hb]

theorem sigOk_insert {g : V → List (Poll (Option β))} {signals : List (K × MState V β)}
    (h : SigOk g signals) (key : K) {x : MState V β} (hx : MOk g x) {b : β}
    (hb : x.latest = some b) :
    SigOk g (bInsert key x signals).2 ∧
    tagOf (bInsert key x signals).2 = upd (tagOf signals) key (some x.tag) ∧
    latestOf (bInsert key x signals).2 = upd (latestOf signals) key (some b) := by
  obtain ⟨-, h2, h3, h4⟩ := bInsert_spec h.asc key x
  refine ⟨⟨h2, ?_⟩, ?_, ?_⟩
  · intro e he
    rcases h4 e he with rfl | he
    · exact ⟨hx, b, hb⟩
    · exact h.ok e he
  · funext j; simp only [tagOf, h3, upd]; split <;> simp
  · funext j; simp only [latestOf, h3, upd]; split <;> simp [hb]

theorem newEntries_spec {g : V → List (Poll (Option β))}
    (hg : ∀ t, ∃ b rest, g t = .ready (some b) :: rest) (w : Waker) (es : List (K × V))
    (hn : (es.map (·.1)).Nodup) (signals : List (K × MState V β)) (h : SigOk g signals) :
    ∃ bs signals', newEntries g w es signals = some (bs, signals') ∧ SigOk g signals' ∧
      bs.map (·.1) = es.map (·.1) ∧
      (∀ k, tagOf signals' k = if k ∈ es.map (·.1) then mapOf es k else tagOf signals k) ∧
      (∀ k, latestOf signals' k = if k ∈ es.map (·.1) then mapOf bs k else latestOf signals k) := by
  induction es generalizing signals with
  | nil => exact ⟨[], signals, rfl, h, rfl, by simp, by simp⟩
  | cons e es ih =>
    simp only [List.map_cons, List.nodup_cons] at hn
    obtain ⟨b, x, g1, g2, g3, g4⟩ := MState.new_spec hg w e.2
    obtain ⟨i1, i2, i3⟩ := sigOk_insert h e.1 g3 g4
    obtain ⟨bs, signals', h1, h2, h3, h4, h5⟩ := ih hn.2 _ i1
    refine ⟨(e.1, b) :: bs, signals', by simp [newEntries, g1, h1], h2, by simp [h3], ?_, ?_⟩
    · intro k
      rw [h4 k]
      simp only [i2, upd, List.map_cons, List.mem_cons, mapOf]
      by_cases hk : k = e.1
      · subst hk
        simp [hn.1, g2]
      · have hk' : ¬ e.1 = k := fun h => hk h.symm
        by_cases hm : k ∈ es.map (·.1)
        · rw [if_pos hm, if_pos (.inr hm), if_neg hk']
        · have hor : ¬ (k = e.1 ∨ k ∈ es.map (·.1)) := by rintro (h | h); exacts [hk h, hm h]
          rw [if_neg hm, if_neg hk, if_neg hor]
    · intro k
      rw [h5 k]
      simp only [i3, upd, List.map_cons, List.mem_cons, mapOf]
      by_cases hk : k = e.1
      · subst hk
        simp [hn.1]
      · have hk' : ¬ e.1 = k := fun h => hk h.symm
        by_cases hm : k ∈ es.map (·.1)
        · rw [if_pos hm, if_pos (.inr hm), if_neg hk']
        · have hor : ¬ (k = e.1 ∨ k ∈ es.map (·.1)) := by rintro (h | h); exacts [hk h, hm h]
          rw [if_neg hm, if_neg hk, if_neg hor]

/-- One change of the input. -/
theorem mapValueBody_spec {g : V → List (Poll (Option β))}
    (hg : ∀ t, ∃ b rest, g t = .ready (some b) :: rest) (w : Waker) (d : MapDiff K V)
    {signals : List (K × MState V β)} (h : SigOk g signals) {m' : K → Option V}
    (hd : d.apply (tagOf signals) = some m') (np : List (MapDiff K β)) :
    ∃ signals' e, mapValueBody g w (signals, np) d = .cont (signals', np ++ [e]) ∧
      SigOk g signals' ∧ tagOf signals' = m' ∧ e.apply (latestOf signals) = some (latestOf signals') := by
  cases d with
  | replace es =>
    simp only [MapDiff.apply] at hd
    split at hd <;> cases hd
    rename_i hn
    obtain ⟨bs, signals', h1, h2, h3, h4, h5⟩ :=
      newEntries_spec hg w es hn [] ⟨List.Pairwise.nil, by simp⟩
    refine ⟨signals', .replace bs, by simp [mapValueBody, h1], h2, ?_, ?_⟩
    · funext k
      rw [h4 k]
      split
      · rfl
      · rename_i hk; rw [mapOf_eq_none.2 hk]; rfl
    · simp only [MapDiff.apply, h3, hn, ↓reduceIte, Option.some.injEq]
      funext k
      rw [h5 k]
      split
      · rfl
      · rename_i hk; rw [← h3] at hk; rw [mapOf_eq_none.2 hk]; rfl
  | insert key v =>
    simp only [MapDiff.apply] at hd
    split at hd <;> cases hd
    rename_i hn
    obtain ⟨b, x, g1, g2, g3, g4⟩ := MState.new_spec hg w v
    obtain ⟨i1, i2, i3⟩ := sigOk_insert h key g3 g4
    refine ⟨_, .insert key b, by simp [mapValueBody, g1], i1, by rw [i2, g2], ?_⟩
    have := h.latest_isSome key
    have : (latestOf signals key).isNone = true := by
      cases hl : latestOf signals key <;> simp_all
    simp [MapDiff.apply, this, i3]
  | update key v =>
    simp only [MapDiff.apply] at hd
    split at hd <;> cases hd
    rename_i hn
    obtain ⟨b, x, g1, g2, g3, g4⟩ := MState.new_spec hg w v
    have hk : (mapOf signals key).isSome := by simpa [tagOf] using hn
    obtain ⟨l', u1, u2, u3, u4⟩ := bUpdate_spec h.asc key x hk
    refine ⟨l', .update key b, by simp [mapValueBody, g1, u1], ⟨u2, ?_⟩, ?_, ?_⟩
    · intro e he
      have hm : mapOf l' e.1 = some e.2 := mapOf_of_mem u2.nodup he
      rw [u3] at hm
      simp only [upd] at hm
      split at hm
      · cases hm; exact ⟨g3, b, g4⟩
      · exact h.ok _ (mapOf_mem hm)
    · funext j; simp only [tagOf, u3, upd]; split <;> simp [g2]
    · have := h.latest_isSome key
      rw [hn] at this
      simp only [MapDiff.apply, this, ↓reduceIte, Option.some.injEq]
      funext j; simp only [latestOf, u3, upd]; split <;> simp [g4]
  | remove key =>
    simp only [MapDiff.apply] at hd
    split at hd <;> cases hd
    rename_i hn
    obtain ⟨-, r2, r3, r4⟩ := bRemove_spec h.asc key
    refine ⟨_, .remove key, rfl, ⟨r2, fun e he => h.ok e (r4 e he)⟩, ?_, ?_⟩
    · funext j; simp only [tagOf, r3, upd]; split <;> simp
    · have := h.latest_isSome key
      rw [hn] at this
      simp only [MapDiff.apply, this, ↓reduceIte, Option.some.injEq]
      funext j; simp only [latestOf, r3, upd]; split <;> simp
  | clear =>
    cases hd
    exact ⟨[], .clear, rfl, ⟨List.Pairwise.nil, by simp⟩, rfl, rfl⟩

/-- The loop over the inner signals: `done` are the entries before it. -/
theorem pollEntries_spec {g : V → List (Poll (Option β))} (w : Waker) (xs : List (K × MState V β))
    (h : ∀ e ∈ xs, MOk g e.2 ∧ ∃ b, e.2.latest = some b) (hn : (xs.map (·.1)).Nodup)
    (z : K → Option β) (hz : ∀ e ∈ xs, z e.1 = e.2.latest) (np : List (MapDiff K β)) :
    ∃ hp add xs' z', pollEntries w np xs = (hp, np ++ add, xs') ∧
      xs'.map (fun e => (e.1, e.2.tag)) = xs.map (fun e => (e.1, e.2.tag)) ∧
      (∀ e ∈ xs', MOk g e.2 ∧ ∃ b, e.2.latest = some b) ∧
      mreplay add z = some z' ∧ (∀ e ∈ xs', z' e.1 = e.2.latest) ∧
      (∀ k, k ∉ xs.map (·.1) → z' k = z k) ∧
      (add = [] → (∀ e ∈ xs', Settled w e.2.sig) ∧
        (hp = false ↔ ∀ e ∈ xs', e.2.sig.alive = false)) := by
  induction xs generalizing z np with
  | nil => exact ⟨false, [], [], z, by simp [pollEntries], rfl, by simp, rfl, by simp, by simp, by simp⟩
  | cons x xs ih =>
    simp only [List.map_cons, List.nodup_cons] at hn
    obtain ⟨hx, v, hv⟩ := h x (by simp)
    obtain ⟨r, i', a1, a2, a3, a4, a5⟩ := Inp.poll_full w x.2.sig hx.inp
    have hok : MOk g ⟨x.2.tag, i'⟩ := ⟨a2, a3.trans hx.all⟩
    have hlat : itemOf r = [] → (⟨x.2.tag, i'⟩ : MState V β).latest = some v := by
      intro hr
      rw [← hv]; simp [MState.latest, a4, hr]
    have hrest := fun y hy => h y (List.mem_cons_of_mem x hy)
    have hzx : z x.1 = some v := (hz x (by simp)).trans hv
    have hne : ∀ e ∈ xs, e.1 ≠ x.1 := by
      intro e he heq
      exact hn.1 (heq ▸ List.mem_map_of_mem he)
    -- the signal did not change
    have same : itemOf r = [] → (i'.alive = false ∨ i'.src.armed w) → ∀ (b : Bool),
        (b = true ↔ i'.alive = true) →
        (∀ hp np' xs', pollEntries w np xs = (hp, np', xs') →
          pollEntries w np (x :: xs) = (b || hp, np', (x.1, ⟨x.2.tag, i'⟩) :: xs')) →
        ∃ hp add xs' z', pollEntries w np (x :: xs) = (hp, np ++ add, xs') ∧
          xs'.map (fun e => (e.1, e.2.tag)) = (x :: xs).map (fun e => (e.1, e.2.tag)) ∧
          (∀ e ∈ xs', MOk g e.2 ∧ ∃ b, e.2.latest = some b) ∧
          mreplay add z = some z' ∧ (∀ e ∈ xs', z' e.1 = e.2.latest) ∧
          (∀ k, k ∉ (x :: xs).map (·.1) → z' k = z k) ∧
          (add = [] → (∀ e ∈ xs', Settled w e.2.sig) ∧
            (hp = false ↔ ∀ e ∈ xs', e.2.sig.alive = false)) := by
      intro hr hset b hb heq
      obtain ⟨hp, add, xs', z', c1, c2, c3, c4, c5, c6, c7⟩ := ih hrest hn.2 z
        (fun e he => hz e (List.mem_cons_of_mem x he)) np
      refine ⟨b || hp, add, (x.1, ⟨x.2.tag, i'⟩) :: xs', z', heq _ _ _ c1, by simp [c2], ?_, c4, ?_,
        ?_, ?_⟩
      · intro y hy
        rcases List.mem_cons.1 hy with rfl | hy
        · exact ⟨hok, v, hlat hr⟩
        · exact c3 y hy
      · intro y hy
        rcases List.mem_cons.1 hy with rfl | hy
        · simp only; rw [c6 _ hn.1, hzx, hlat hr]
        · exact c5 y hy
      · intro k hk
        simp only [List.map_cons, List.mem_cons, not_or] at hk
        exact c6 k hk.2
      · intro ha
        obtain ⟨d1, d2⟩ := c7 ha
        refine ⟨?_, ?_⟩
        · intro y hy
          rcases List.mem_cons.1 hy with rfl | hy
          · exact hset
          · exact d1 y hy
        · simp only [Bool.or_eq_false_iff, d2, List.forall_mem_cons]
          have : b = false ↔ i'.alive = false := by
            cases b <;> cases hi : i'.alive <;> simp_all
          rw [this]
    obtain _ | ((_ | b) | _) := r
    · refine same rfl (.inl a5) false (by simp [a5]) ?_
      intro hp np' xs' e
      rw [pollEntries, a1]
      simp [e]
    · refine same rfl (.inl a5) false (by simp [a5]) ?_
      intro hp np' xs' e
      rw [pollEntries, a1]
      simp [e]
    rotate_left
    · refine same rfl (.inr a5.2) true (by simp [a5.1]) ?_
      intro hp np' xs' e
      rw [pollEntries, a1]
      simp [e]
    · have hlat' : (⟨x.2.tag, i'⟩ : MState V β).latest = some b := by
        simp [MState.latest, a4, itemOf]
      obtain ⟨hp, add, xs', z', c1, c2, c3, c4, c5, c6, c7⟩ := ih hrest hn.2 (upd z x.1 (some b))
        (fun e he => by rw [upd_other z _ (hne e he)]; exact hz e (List.mem_cons_of_mem x he))
        (np ++ [.update x.1 b])
      refine ⟨hp, .update x.1 b :: add, (x.1, ⟨x.2.tag, i'⟩) :: xs', z', ?_, by simp [c2], ?_, ?_,
        ?_, ?_, by simp⟩
      · rw [pollEntries, a1]
        simp [c1]
      · intro y hy
        rcases List.mem_cons.1 hy with rfl | hy
        · exact ⟨hok, b, hlat'⟩
        · exact c3 y hy
      · have : (MapDiff.update x.1 b).apply z = some (upd z x.1 (some b)) := by
          simp [MapDiff.apply, hzx]
        simp only [mreplay, this, c4]
      · intro y hy
        rcases List.mem_cons.1 hy with rfl | hy
        · simp only; rw [c6 _ hn.1, upd_same, hlat']
        · exact c5 y hy
      · intro k hk
        simp only [List.map_cons, List.mem_cons, not_or] at hk
        rw [c6 k hk.2, upd_other z _ hk.1]

theorem tagOf_congr {xs xs' : List (K × MState V β)}
    (h : xs'.map (fun e => (e.1, e.2.tag)) = xs.map (fun e => (e.1, e.2.tag))) :
    tagOf xs' = tagOf xs := by
  funext k
  have h1 := mapOf_map (fun e : MState V β => e.tag) xs k
  have h2 := mapOf_map (fun e : MState V β => e.tag) xs' k
  unfold tagOf
  rw [← h1, ← h2, h]

structure MapValueInv (g : V → List (Poll (Option β))) (s : MMapSignal K V β)
    (m : K → Option V) (z : K → Option β) : Prop where
  inp : s.signal.Ok
  valid : MValid (fun _ => True) s.signal.src m
  sigs : SigOk g s.signals
  tags : tagOf s.signals = m
  queue : mreplay s.pending z = some (latestOf s.signals)

theorem MMapSignal.step {g : V → List (Poll (Option β))}
    (hg : ∀ t, ∃ b rest, g t = .ready (some b) :: rest) (w : Waker) {s : MMapSignal K V β}
    {m : K → Option V} {z : K → Option β} (h : MapValueInv g s m z) :
    ∃ r s' m', MMapSignal.poll g w s = some (r, s') ∧
      match r with
      | .ready (some d) => ∃ z', d.apply z = some z' ∧ MapValueInv g s' m' z'
      | .ready none => MapValueInv g s' m' z ∧ s'.pending = [] ∧ s'.signal.alive = false ∧
          ∀ e ∈ s'.signals, e.2.sig.alive = false
      | .pending => MapValueInv g s' m' z ∧ s'.pending = [] ∧ Settled w s'.signal ∧
          (∀ e ∈ s'.signals, Settled w e.2.sig) ∧
          ¬ (s'.signal.alive = false ∧ ∀ e ∈ s'.signals, e.2.sig.alive = false) := by
  obtain ⟨sig, signals, pend⟩ := s
  unfold MMapSignal.poll
  have hq := h.queue
  cases hp : pend with
  | cons c rest =>
    subst hp
    obtain ⟨z', h1, h2⟩ := mreplay_cons_some hq
    exact ⟨_, _, m, rfl, z', h1, h.inp, h.valid, h.sigs, h.tags, h2⟩
  | nil =>
    subst hp
    simp only
    simp only [mreplay, Option.some.injEq] at hq
    obtain ⟨st, ⟨signals', np⟩, i', m', h1, h2, h3, h4⟩ := Inp.mloop_rule (ok := fun _ => True)
      (w := w) (body := mapValueBody g w)
      (fun q m => SigOk g q.1 ∧ tagOf q.1 = m ∧ mreplay q.2 z = some (latestOf q.1))
      (fun _ _ _ => False)
      (by
        rintro ⟨signals, np⟩ m d m' ⟨a, b, c⟩ - hd
        simp only at a b c
        subst b
        obtain ⟨signals', e, e1, e2, e3, e4⟩ := mapValueBody_spec hg w d a hd np
        rw [e1]
        exact ⟨e2, e3, by rw [mreplay_snoc c, e4]⟩)
      sig (signals, []) m h.inp h.valid ⟨h.sigs, h.tags, by rw [mreplay, hq]⟩
    rw [h1]
    simp only at h4
    have hfin : ∀ top, (top = true → i'.alive = false) →
        (top = false → i'.alive = true ∧ i'.src.armed w) →
        (SigOk g signals' ∧ tagOf signals' = m' ∧ mreplay np z = some (latestOf signals')) →
        ∃ r s' m', some (MMapSignal.finish w top i' signals' np) = some (r, s') ∧
          match r with
          | .ready (some d) => ∃ z', d.apply z = some z' ∧ MapValueInv g s' m' z'
          | .ready none => MapValueInv g s' m' z ∧ s'.pending = [] ∧ s'.signal.alive = false ∧
              ∀ e ∈ s'.signals, e.2.sig.alive = false
          | .pending => MapValueInv g s' m' z ∧ s'.pending = [] ∧ Settled w s'.signal ∧
              (∀ e ∈ s'.signals, Settled w e.2.sig) ∧
              ¬ (s'.signal.alive = false ∧ ∀ e ∈ s'.signals, e.2.sig.alive = false) := by
      rintro top ht1 ht2 ⟨a, b, c⟩
      obtain ⟨hp, add, xs', z', d1, d2, d3, d4, d5, d6, d7⟩ := pollEntries_spec w signals' a.ok
        a.asc.nodup (latestOf signals')
        (fun e he => by simp [latestOf, mapOf_of_mem a.asc.nodup (k := e.1) (v := e.2) he]) np
      have hkeys : xs'.map (·.1) = signals'.map (·.1) := by
        have := congrArg (List.map (·.1)) d2
        rw [List.map_map, List.map_map] at this
        exact this
      have hasc : Ascending xs' := ascending_of_keys hkeys a.asc
      have hlat : z' = latestOf xs' := by
        funext k
        by_cases hk : k ∈ xs'.map (·.1)
        · obtain ⟨e, he, rfl⟩ := List.mem_map.1 hk
          rw [d5 e he]
          simp [latestOf, mapOf_of_mem hasc.nodup (k := e.1) (v := e.2) he]
        · have h1 : mapOf xs' k = none := mapOf_eq_none.2 hk
          have h2 : mapOf signals' k = none := mapOf_eq_none.2 (hkeys ▸ hk)
          rw [d6 k (hkeys ▸ hk)]
          simp [latestOf, h1, h2]
      subst hlat
      have d8 : mreplay (np ++ add) z = some (latestOf xs') := by
        rw [mreplay_append_some c, d4]
      have htags : tagOf xs' = m' := (tagOf_congr d2).trans b
      have hsig : SigOk g xs' := ⟨hasc, d3⟩
      unfold MMapSignal.finish
      rw [d1]
      cases hall : np ++ add with
      | cons d rest =>
        rw [hall] at d8
        obtain ⟨z1, f1, f2⟩ := mreplay_cons_some d8
        exact ⟨_, _, m', rfl, z1, f1, h2, h3, hsig, htags, f2⟩
      | nil =>
        rw [hall] at d8
        have hadd : add = [] := (List.append_eq_nil_iff.1 hall).2
        obtain ⟨d9, d10⟩ := d7 hadd
        by_cases hd : top && !hp
        · simp only [hd, if_true]
          simp only [Bool.and_eq_true, Bool.not_eq_true'] at hd
          exact ⟨_, _, m', rfl, ⟨h2, h3, hsig, htags, d8⟩, rfl, ht1 hd.1, d10.1 hd.2⟩
        · simp only [hd]
          refine ⟨_, _, m', rfl, ⟨h2, h3, hsig, htags, d8⟩, rfl, ?_, d9, ?_⟩
          · cases top with
            | true => exact .inl (ht1 rfl)
            | false => exact .inr (ht2 rfl).2
          · rintro ⟨k1, k2⟩
            have := d10.2 k2
            subst this
            cases top with
            | true => simp at hd
            | false => have := (ht2 rfl).1; rw [k1] at this; cases this
    cases st with
    | panic => exact h4.elim
    | ret d => exact h4.1.elim
    | ended =>
      obtain ⟨a, e⟩ := h4
      exact hfin true (fun _ => e) (by simp) a
    | pending =>
      obtain ⟨a, e⟩ := h4
      exact hfin false (by simp) (fun _ => e) a

end

end Verif
