import Verif.Input

/-!
# Model of `chain` and `flatten` of `/repo/src/signal_vec.rs`
-/

namespace Verif

variable {α β ι : Type}

/-- `for index in (0..n).rev() { push(RemoveAt { index: off + index }) }`. -/
def removesDesc (off : Nat) : Nat → List (VecDiff α)
  | 0 => []
  | n + 1 => .removeAt (off + n) :: removesDesc off n

/-- `for (index, value) in values.enumerate() { push(InsertAt { index: off + index, value }) }`. -/
def insertsFrom (off : Nat) : List α → List (VecDiff α)
  | [] => []
  | v :: vs => .insertAt off v :: insertsFrom (off + 1) vs

/-! ## `chain` -/

/-- `Chain`, `/repo/src/signal_vec.rs:694-702`. -/
structure VChain (α : Type) where
  left : Inp (Option (VecDiff α))
  right : Inp (Option (VecDiff α))
  leftLen : Nat
  rightLen : Nat
  pending : List (VecDiff α)
deriving DecidableEq, Repr

/-- `SignalVec::chain`, `/repo/src/signal_vec.rs:253-264`. -/
def VChain.init (l r : List (Poll (Option (VecDiff α)))) : VChain α :=
  ⟨Inp.mk' l, Inp.mk' r, 0, 0, []⟩

/-- `process_right_change`, `/repo/src/signal_vec.rs:849-928`.  `right.set(None)` on `Ready(None)` is
part of `Inp.poll`.  The result is the returned change; `none` is a panic (`-= 1` at 0). -/
def VChain.processRightChange (change : Option (Poll (Option (VecDiff α)))) (s : VChain α) :
    Option (Option (VecDiff α) × VChain α) :=
  match change with
  | some (.ready (some change)) =>
    match change with
    | .replace values =>
      let removing := s.rightLen
      let s := { s with rightLen := values.length }
      if s.leftLen = 0 then some (some (.replace values), s)
      else some (none, { s with
        pending := s.pending ++ List.replicate removing .pop ++ values.map .push })
    | .insertAt index value =>
      some (some (.insertAt (index + s.leftLen) value), { s with rightLen := s.rightLen + 1 })
    | .updateAt index value => some (some (.updateAt (index + s.leftLen) value), s)
    | .move oldIndex newIndex => some (some (.move (oldIndex + s.leftLen) (newIndex + s.leftLen)), s)
    | .removeAt index =>
      if s.rightLen = 0 then none
      else some (some (.removeAt (index + s.leftLen)), { s with rightLen := s.rightLen - 1 })
    | .push value => some (some (.push value), { s with rightLen := s.rightLen + 1 })
    | .pop => if s.rightLen = 0 then none else some (some .pop, { s with rightLen := s.rightLen - 1 })
    | .clear =>
      let removing := s.rightLen
      let s := { s with rightLen := 0 }
      if s.leftLen = 0 then some (some .clear, s)
      else some (none, { s with pending := s.pending ++ List.replicate removing .pop })
  | some (.ready none) => some (none, s)
  | some .pending => some (none, s)
  | none => some (none, s)

/-- `process_replace`, `/repo/src/signal_vec.rs:719-757`, with the match of `is_replace`, `705-710`. -/
def VChain.processReplace (w : Waker) (leftValues : List α) (s : VChain α) :
    Option (Option (VecDiff α) × VChain α) :=
  let (change, right) := s.right.poll w
  let s := { s with right := right }
  match change with
  | some (.ready (some (.replace rightValues))) =>
    some (some (.replace (leftValues ++ rightValues)),
      { s with leftLen := leftValues.length, rightLen := rightValues.length })
  | change =>
    let removing := s.leftLen
    let s := { s with leftLen := leftValues.length }
    let (output, s) :=
      if s.rightLen = 0 then (some (VecDiff.replace leftValues), s)
      else (none, { s with
        pending := s.pending ++ removesDesc 0 removing ++ insertsFrom 0 leftValues })
    match s.processRightChange change with
    | none => none
    | some (some change, s) => some (output, { s with pending := s.pending ++ [change] })
    | some (none, s) => some (output, s)

/-- `process_clear`, `/repo/src/signal_vec.rs:759-791`, with the match of `is_clear`, `712-717`. -/
def VChain.processClear (w : Waker) (s : VChain α) : Option (Option (VecDiff α) × VChain α) :=
  let (change, right) := s.right.poll w
  let s := { s with right := right }
  match change with
  | some (.ready (some .clear)) => some (some .clear, { s with leftLen := 0, rightLen := 0 })
  | change =>
    let removing := s.leftLen
    let s := { s with leftLen := 0 }
    let (output, s) :=
      if s.rightLen = 0 then (some VecDiff.clear, s)
      else (none, { s with pending := s.pending ++ removesDesc 0 removing })
    match s.processRightChange change with
    | none => none
    | some (some change, s) => some (output, { s with pending := s.pending ++ [change] })
    | some (none, s) => some (output, s)

/-- The inner match of `process_left`, `/repo/src/signal_vec.rs:796-838`. -/
def VChain.processLeftChange (w : Waker) (change : VecDiff α) (s : VChain α) :
    Option (Option (VecDiff α) × VChain α) :=
  match change with
  | .replace values => s.processReplace w values
  | .insertAt index value =>
    some (some (.insertAt index value), { s with leftLen := s.leftLen + 1 })
  | .updateAt index value => some (some (.updateAt index value), s)
  | .move oldIndex newIndex => some (some (.move oldIndex newIndex), s)
  | .removeAt index =>
    if s.leftLen = 0 then none
    else some (some (.removeAt index), { s with leftLen := s.leftLen - 1 })
  | .push value =>
    let index := s.leftLen
    let s := { s with leftLen := s.leftLen + 1 }
    if s.rightLen = 0 then some (some (.push value), s) else some (some (.insertAt index value), s)
  | .pop =>
    if s.leftLen = 0 then none
    else
      let s := { s with leftLen := s.leftLen - 1 }
      if s.rightLen = 0 then some (some .pop, s) else some (some (.removeAt s.leftLen), s)
  | .clear => s.processClear w

/-- `process_left`, `/repo/src/signal_vec.rs:793-847`. -/
def VChain.processLeft (w : Waker) (s : VChain α) : Option (Option (VecDiff α) × VChain α) :=
  let (change, left) := s.left.poll w
  let s := { s with left := left }
  match change with
  | some (.ready (some change)) => s.processLeftChange w change
  | some (.ready none) => some (none, s)
  | some .pending => some (none, s)
  | none => some (none, s)

/-- `process_right`, `/repo/src/signal_vec.rs:930-933`. -/
def VChain.processRight (w : Waker) (s : VChain α) : Option (Option (VecDiff α) × VChain α) :=
  let (change, right) := s.right.poll w
  { s with right := right }.processRightChange change

/-- `Chain::poll_vec_change`, `/repo/src/signal_vec.rs:942-971`.  Every path through the body of its
`loop` returns. -/
def VChain.poll (w : Waker) (s : VChain α) : Option (Poll (Option (VecDiff α)) × VChain α) :=
  match s.pending with
  | change :: rest => some (.ready (some change), { s with pending := rest })
  | [] =>
    match s.processLeft w with
    | none => none
    | some (some change, s) => some (.ready (some change), s)
    | some (none, s) =>
      match s.pending with
      | change :: rest => some (.ready (some change), { s with pending := rest })
      | [] =>
        match s.processRight w with
        | none => none
        | some (some change, s) => some (.ready (some change), s)
        | some (none, s) =>
          match s.pending with
          | change :: rest => some (.ready (some change), { s with pending := rest })
          | [] =>
            if !s.left.alive && !s.right.alive then some (.ready none, s) else some (.pending, s)

/-! ## `flatten` -/

/-- `FlattenState`, `/repo/src/signal_vec.rs:976-980`.  `tag` is a ghost field: the element of the
outer vector this inner vector came from. -/
structure FState (ι β : Type) where
  tag : ι
  signalVec : Inp (Option (VecDiff β))
  len : Nat
deriving DecidableEq, Repr

/-- `FlattenState::new`, `/repo/src/signal_vec.rs:983-988`.  An element `tag` of the outer vector is an
inner `SignalVec` with script `g tag`. -/
def FState.new (g : ι → List (Poll (Option (VecDiff β)))) (tag : ι) : FState ι β :=
  ⟨tag, Inp.mk' (g tag), 0⟩

/-- `update_len`, `/repo/src/signal_vec.rs:990-1006`; `-= 1` panics at 0. -/
def updateLen (len : Nat) : VecDiff β → Option Nat
  | .replace values => some values.length
  | .insertAt _ _ => some (len + 1)
  | .push _ => some (len + 1)
  | .removeAt _ => if len = 0 then none else some (len - 1)
  | .pop => if len = 0 then none else some (len - 1)
  | .clear => some 0
  | .updateAt _ _ => some len
  | .move _ _ => some len

/-- Loop body of `poll_values`, `/repo/src/signal_vec.rs:1017-1020`: loop variables `len`, `output`. -/
def pollValuesBody (s : Nat × List β) (diff : VecDiff β) : Ctl (Nat × List β) Empty :=
  match updateLen s.1 diff with
  | none => .panic
  | some len =>
    match diff.apply s.2 with
    | none => .panic
    | some output => .cont (len, output)

/-- `FlattenState::poll_values`, `/repo/src/signal_vec.rs:1012-1032`; `FlattenState::poll`,
`1008-1010`, is the poll of the `Inp`. -/
def FState.pollValues (w : Waker) (s : FState ι β) : Option (List β × FState ι β) :=
  match s.signalVec.loop w pollValuesBody (s.len, []) with
  | (.panic, _, _) => none
  | (.ret _, _, _) => none
  | (_, (len, output), i) => some (output, ⟨s.tag, i, len⟩)

/-- Loop body of `poll_pending`, `/repo/src/signal_vec.rs:1037-1078`: loop variables `len`, `pending`;
`PendingBuilder` (`1461-1482`) is a list. -/
def pollPendingBody (prevLen : Nat) (s : Nat × List (VecDiff β)) (diff : VecDiff β) :
    Ctl (Nat × List (VecDiff β)) Empty :=
  let (oldLen, pending) := s
  match updateLen oldLen diff with
  | none => .panic
  | some len =>
    match diff with
    | .replace values =>
      .cont (len, pending ++ removesDesc prevLen oldLen ++ insertsFrom prevLen values)
    | .insertAt index value => .cont (len, pending ++ [.insertAt (prevLen + index) value])
    | .updateAt index value => .cont (len, pending ++ [.updateAt (prevLen + index) value])
    | .removeAt index => .cont (len, pending ++ [.removeAt (prevLen + index)])
    | .move oldIndex newIndex =>
      .cont (len, pending ++ [.move (prevLen + oldIndex) (prevLen + newIndex)])
    | .push value => .cont (len, pending ++ [.insertAt (prevLen + oldLen) value])
    | .pop => .cont (len, pending ++ [.removeAt (prevLen + (oldLen - 1))])
    | .clear => .cont (len, pending ++ removesDesc prevLen oldLen)

/-- `FlattenState::poll_pending`, `/repo/src/signal_vec.rs:1034-1091`: whether it is done, the new
pending list and the new state. -/
def FState.pollPending (w : Waker) (prevLen : Nat) (pending : List (VecDiff β)) (s : FState ι β) :
    Option (Bool × List (VecDiff β) × FState ι β) :=
  match s.signalVec.loop w (pollPendingBody prevLen) (s.len, pending) with
  | (.panic, _, _) => none
  | (.ret _, _, _) => none
  | (.ended, (len, pending), i) => some (true, pending, ⟨s.tag, i, len⟩)
  | (.pending, (len, pending), i) => some (false, pending, ⟨s.tag, i, len⟩)

/-- `Flatten`, `/repo/src/signal_vec.rs:1096-1101`. -/
structure VFlatten (ι β : Type) where
  signal : Inp (Option (VecDiff ι))
  inner : List (FState ι β)
  pending : List (VecDiff β)

/-- `SignalVec::flatten`, `/repo/src/signal_vec.rs:370-379`. -/
def VFlatten.init (script : List (Poll (Option (VecDiff ι)))) : VFlatten ι β :=
  ⟨Inp.mk' script, [], []⟩

/-- `iter_mut().flat_map(|state| state.poll_values(cx)).collect()`,
`/repo/src/signal_vec.rs:1138-1140`. -/
def pollAllValues (w : Waker) : List (FState ι β) → Option (List β × List (FState ι β))
  | [] => some ([], [])
  | s :: ss =>
    match s.pollValues w with
    | none => none
    | some (vs, s) =>
      match pollAllValues w ss with
      | none => none
      | some (vs', ss) => some (vs ++ vs', s :: ss)

/-- Loop body on a change of the outer vector, `/repo/src/signal_vec.rs:1134-1169`. -/
def flattenBody (g : ι → List (Poll (Option (VecDiff β)))) (w : Waker)
    (inner : List (FState ι β)) (diff : VecDiff ι) : Ctl (List (FState ι β)) (VecDiff β) :=
  match diff with
  | .replace values =>
    match pollAllValues w (values.map (FState.new g)) with
    | none => .panic
    | some (values, inner) => .ret inner (.replace values)
  | .insertAt index value =>
    match vInsert inner index (FState.new g value) with
    | none => .panic
    | some inner => .cont inner
  | .updateAt index value =>
    match vSet inner index (FState.new g value) with
    | none => .panic
    | some inner => .cont inner
  | .removeAt index =>
    match vRemove inner index with
    | none => .panic
    | some (_, inner) => .cont inner
  | .move oldIndex newIndex =>
    match vRemove inner oldIndex with
    | none => .panic
    | some (value, inner) =>
      match vInsert inner newIndex value with
      | none => .panic
      | some inner => .cont inner
  | .push value => .cont (inner ++ [FState.new g value])
  | .pop =>
    match vPop inner with
    | (none, _) => .panic
    | (some _, inner) => .cont inner
  | .clear => .ret [] .clear

/-- The `for state in this.inner.iter_mut()` loop, `/repo/src/signal_vec.rs:1184-1196`: whether all are
done, the pending list, the new states. -/
def pollAllPending (w : Waker) : Nat → List (VecDiff β) → List (FState ι β) →
    Option (Bool × List (VecDiff β) × List (FState ι β))
  | _, pending, [] => some (true, pending, [])
  | prevLen, pending, s :: ss =>
    match s.pollPending w prevLen pending with
    | none => none
    | some (done, pending, s) =>
      match pollAllPending w (prevLen + s.len) pending ss with
      | none => none
      | some (done', pending, ss) => some (done && done', pending, s :: ss)

/-- `/repo/src/signal_vec.rs:1184-1207`, the part after the outer loop. -/
def VFlatten.finish (w : Waker) (topDone : Bool) (signal : Inp (Option (VecDiff ι)))
    (inner : List (FState ι β)) : Option (Poll (Option (VecDiff β)) × VFlatten ι β) :=
  match pollAllPending w 0 [] inner with
  | none => none
  | some (_, first :: rest, inner) => some (.ready (some first), ⟨signal, inner, rest⟩)
  | some (innerDone, [], inner) =>
    if innerDone && topDone then some (.ready none, ⟨signal, inner, []⟩)
    else some (.pending, ⟨signal, inner, []⟩)

/-- `Flatten::poll_vec_change`, `/repo/src/signal_vec.rs:1122-1208`. -/
def VFlatten.poll (g : ι → List (Poll (Option (VecDiff β)))) (w : Waker) (s : VFlatten ι β) :
    Option (Poll (Option (VecDiff β)) × VFlatten ι β) :=
  match s.pending with
  | diff :: rest => some (.ready (some diff), { s with pending := rest })
  | [] =>
    match s.signal.loop w (flattenBody g w) s.inner with
    | (.panic, _, _) => none
    | (.ret d, inner, i) => some (.ready (some d), ⟨i, inner, []⟩)
    | (.ended, inner, i) => VFlatten.finish w true i inner
    | (.pending, inner, i) => VFlatten.finish w false i inner

end Verif
