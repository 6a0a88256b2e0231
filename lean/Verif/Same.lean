import Verif.Thru

/-!
# Indistinguishable expressions (vocabulary of C101)
-/

namespace Verif

namespace Expr

/-- Whoever polls the expressions cannot tell them apart: they have the same traces (the same answers to polls with the
same wakers, whatever the sources do), and in both the same wakers have been woken. -/
def Same {τ : Ty} (e e' : Expr τ) : Prop := ∀ live t W, e.Exec live t W ↔ e'.Exec live t W

/-- The expression is never polled after it has ended.  (Only a source can be polled then, C71.) -/
def Fused {τ : Ty} (e : Expr τ) : Prop := ∀ live t W, e.Exec live t W → ∀ t1 w t2, t = t1 ++ (w, .ready none) :: t2 → t2 = []

/-- `Swaps e e'`: the expression `e'` is `e` with any number of its parts, at any depth, replaced by
indistinguishable ones.  This includes the expressions made by closures. -/
inductive Swaps : {τ : Ty} → Expr τ → Expr τ → Prop
  | here {τ : Ty} {e e' : Expr τ} (h : Same e e') : Swaps e e'
  | trans {τ : Ty} {e e' e'' : Expr τ} (h : Swaps e e') (h' : Swaps e' e'') : Swaps e e''
  | sMap {α β : Type} (f : α → β) {e e' : Expr (.sig α)} (h : Swaps e e') : Swaps (.sMap f e) (.sMap f e')
  | inspect {α : Type} {e e' : Expr (.sig α)} (h : Swaps e e') : Swaps (.inspect e) (.inspect e')
  | not {e e' : Expr (.sig Bool)} (h : Swaps e e') : Swaps (.not e) (.not e')
  | eq {α : Type} [BEq α] (v : α) {e e' : Expr (.sig α)} (h : Swaps e e') : Swaps (.eq v e) (.eq v e')
  | neq {α : Type} [BEq α] (v : α) {e e' : Expr (.sig α)} (h : Swaps e e') : Swaps (.neq v e) (.neq v e')
  | dedupe {α : Type} [BEq α] [LawfulBEq α] {e e' : Expr (.sig α)} (h : Swaps e e') : Swaps (.dedupe e) (.dedupe e')
  | dedupeMap {α β : Type} [BEq α] [LawfulBEq α] (f : α → β) {e e' : Expr (.sig α)} (h : Swaps e e') :
      Swaps (.dedupeMap f e) (.dedupeMap f e')
  | mapRef {α β : Type} [Inhabited α] {n : Nat} (f : List α → β) {es es' : Fin n → Expr (.sig α)}
      (h : ∀ i, Swaps (es i) (es' i)) : Swaps (.mapRef f es) (.mapRef f es')
  | and {e1 e2 e1' e2' : Expr (.sig Bool)} (h1 : Swaps e1 e1') (h2 : Swaps e2 e2') : Swaps (.and e1 e2) (.and e1' e2')
  | or {e1 e2 e1' e2' : Expr (.sig Bool)} (h1 : Swaps e1 e1') (h2 : Swaps e2 e2') : Swaps (.or e1 e2) (.or e1' e2')
  | option {α : Type} {e e' : Expr (.sig α)} (h : Swaps e e') : Swaps (.option e) (.option e')
  | result {α ε : Type} {e e' : Expr (.sig α)} (h : Swaps e e') : Swaps (.result (ε := ε) e) (.result e')
  | stopIf {α : Type} (p : α → Bool) {e e' : Expr (.sig α)} (h : Swaps e e') : Swaps (.stopIf p e) (.stopIf p e')
  | filterMapS {α β : Type} (f : α → Option β) {e e' : Expr (.sig α)} (h : Swaps e e') :
      Swaps (.filterMapS f e) (.filterMapS f e')
  | throttle {α : Type} (futs : Nat → Nat → Fut Unit) {e e' : Expr (.sig α)} (h : Swaps e e') :
      Swaps (.throttle futs e) (.throttle futs e')
  | mapFuture {α β : Type} (futs : α → Nat → Fut β) (held : Nat → Prop) {e e' : Expr (.sig α)} (h : Swaps e e') :
      Swaps (.mapFuture futs held e) (.mapFuture futs held e')
  | delayRemove {β : Type} (futs : β → Nat → Fut Unit) {e e' : Expr (.vec β)} (h : Swaps e e') :
      Swaps (.delayRemove futs e) (.delayRemove futs e')
  | broadcast {α β : Type} (f : α → β) {e e' : Expr (.sig α)} (h : Swaps e e') : Swaps (.broadcast f e) (.broadcast f e')
  | switch {ι β : Type} [Inhabited β] {g g' : ι → Expr (.sig β)} {e e' : Expr (.sig ι)}
      (hg : ∀ i, Swaps (g i) (g' i)) (h : Swaps e e') : Swaps (.switch g e) (.switch g' e')
  | sink {β γ : Type} (k : Sink β γ) {e e' : Expr (.vec β)} (h : Swaps e e') : Swaps (.sink k e) (.sink k e')
  | keyCloned {K V : Type} [LinearOrder K] (key : K) {e e' : Expr (.map K V)} (h : Swaps e e') :
      Swaps (.keyCloned key e) (.keyCloned key e')
  | pipe {β γ : Type} (p : Pipe β γ) {e e' : Expr (.vec β)} (h : Swaps e e') : Swaps (.pipe p e) (.pipe p e')
  | chain {β : Type} {e1 e2 e1' e2' : Expr (.vec β)} (h1 : Swaps e1 e1') (h2 : Swaps e2 e2') :
      Swaps (.chain e1 e2) (.chain e1' e2')
  | mapSignal {β γ : Type} [Inhabited γ] {g g' : β → Expr (.sig γ)} {e e' : Expr (.vec β)}
      (hg : ∀ i, Swaps (g i) (g' i)) (h : Swaps e e') : Swaps (.mapSignal g e) (.mapSignal g' e')
  | mapIndexed {β γ : Type} [Inhabited γ] {g g' : Source (.sig (Option Nat)) → β → Expr (.sig γ)}
      {e e' : Expr (.vec β)} (hg : ∀ s i, Swaps (g s i) (g' s i)) (h : Swaps e e') :
      Swaps (.mapIndexed g e) (.mapIndexed g' e')
  | filterSignal {β : Type} {g g' : β → Expr (.sig Bool)} {e e' : Expr (.vec β)} (hg : ∀ i, Swaps (g i) (g' i))
      (h : Swaps e e') : Swaps (.filterSignal g e) (.filterSignal g' e')
  | flatten {ι β : Type} {g g' : ι → Expr (.vec β)} {e e' : Expr (.vec ι)} (hg : ∀ i, Swaps (g i) (g' i))
      (h : Swaps e e') : Swaps (.flatten g e) (.flatten g' e')
  | toVec {α : Type} {e e' : Expr (.sig (List α))} (h : Swaps e e') : Swaps (.toVec e) (.toVec e')
  | switchVec {ι α : Type} {g g' : ι → Expr (.vec α)} {e e' : Expr (.sig ι)} (hg : ∀ i, Swaps (g i) (g' i))
      (h : Swaps e e') : Swaps (.switchVec g e) (.switchVec g' e')
  | mapValue {K V W : Type} [LinearOrder K] (f : V → W) {e e' : Expr (.map K V)} (h : Swaps e e') :
      Swaps (.mapValue f e) (.mapValue f e')
  | mapValueSignal {K V γ : Type} [LinearOrder K] [Inhabited γ] {g g' : V → Expr (.sig γ)} {e e' : Expr (.map K V)}
      (hg : ∀ i, Swaps (g i) (g' i)) (h : Swaps e e') : Swaps (.mapValueSignal g e) (.mapValueSignal g' e')

end Expr

end Verif
