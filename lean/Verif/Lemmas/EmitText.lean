import Verif.Model.Emitter
/-!
# What the emitter writes for trees, as plain functions
-/
namespace Verif.Emitter
open Verif
variable {F : Type}

/-- indentation of level `l` -/
def ind (l : Nat) : List Byte := List.replicate (2 * l) 32

/-- a scalar on one line -/
def scalarTxt (fo : FloatOps F) : Scalar F → List Byte
  | .str v => if needQuotes fo v then (escapeStr v).getD [] else v
  | .bool b => if b then bs!"true" else bs!"false"
  | .int i => Scalar.displayI64 i
  | .float f => fo.display f
  | .null => bs!"~"

/-- strings that are written as literal blocks -/
def isBlockScalar (cfg : Config) : Scalar F → Bool
  | .str v => shouldEmitStringAsBlock cfg v
  | _ => false

/-- the lines of a literal block of level `l` -/
def linesTxt (l : Nat) (ls : List (List Byte)) : List Byte := ls.flatMap fun y => 10 :: (ind l ++ y)

/-- a literal block of level `l` -/
def blockTxt (l : Nat) (v : List Byte) : List Byte := (if v.getLast? = some 10 then [124] else [124, 45]) ++ linesTxt l (lines v)

/-- a scalar of level `l` -/
def leafTxt (fo : FloatOps F) (cfg : Config) (l : Nat) : Scalar F → List Byte
  | .str v => if shouldEmitStringAsBlock cfg v then blockTxt l v else scalarTxt fo (.str v)
  | x => scalarTxt fo x

theorem leafTxt_plain {fo : FloatOps F} {cfg l x} (h : isBlockScalar cfg x = false) : leafTxt fo cfg l x = scalarTxt fo x := by
  cases x with
  | str v => simp only [isBlockScalar] at h; rw [leafTxt, h]; simp
  | _ => rfl

/-- between an indicator and the value of level `l` -/
def valGap (cfg : Config) (l : Nat) (inline : Bool) (x : Yaml F) : List Byte :=
  if isNonEmptyCollection x ∧ (inline && cfg.compact) = false then 10 :: ind l else [32]

mutual
/-- a node, as a collection of level `l` -/
def nodeTxt (fo : FloatOps F) (cfg : Config) (l : Nat) : Yaml F → List Byte
  | .seq xs => seqTxt fo cfg l xs
  | .map es => mapTxt fo cfg l es
  | .scalar x => leafTxt fo cfg l x
  | .tagged t x => displayTag t ++ 32 :: ((if isNonEmptyCollection x then 10 :: ind l else []) ++ nodeTxt fo cfg l x)
  | _ => []
/-- a sequence -/
def seqTxt (fo : FloatOps F) (cfg : Config) (l : Nat) : List (Yaml F) → List Byte
  | [] => bs!"[]"
  | x :: xs => 45 :: (valGap cfg (l + 1) true x ++ (nodeTxt fo cfg (l + 1) x ++ itemsTxt fo cfg l xs))
/-- the items after the first -/
def itemsTxt (fo : FloatOps F) (cfg : Config) (l : Nat) : List (Yaml F) → List Byte
  | [] => []
  | x :: xs => 10 :: (ind l ++ 45 :: (valGap cfg (l + 1) true x ++ (nodeTxt fo cfg (l + 1) x ++ itemsTxt fo cfg l xs)))
/-- a mapping -/
def mapTxt (fo : FloatOps F) (cfg : Config) (l : Nat) : List (Yaml F × Yaml F) → List Byte
  | [] => bs!"{}"
  | e :: es => entryTxt fo cfg l e ++ entriesTxt fo cfg l es
/-- the entries after the first -/
def entriesTxt (fo : FloatOps F) (cfg : Config) (l : Nat) : List (Yaml F × Yaml F) → List Byte
  | [] => []
  | e :: es => 10 :: (ind l ++ (entryTxt fo cfg l e ++ entriesTxt fo cfg l es))
/-- an entry -/
def entryTxt (fo : FloatOps F) (cfg : Config) (l : Nat) : Yaml F × Yaml F → List Byte
  | (k, v) =>
    if isComplexKey k then
      63 :: (valGap cfg (l + 1) true k ++ (nodeTxt fo cfg (l + 1) k ++ 10 :: (ind l ++
        58 :: (valGap cfg (l + 1) true v ++ nodeTxt fo cfg (l + 1) v))))
    else nodeTxt fo cfg l k ++ 58 :: (valGap cfg (l + 1) false v ++ nodeTxt fo cfg (l + 1) v)
end

/-- a key that is neither tagged nor written as a block -/
def PlainKey (cfg : Config) (k : Yaml F) : Prop := (∀ t y, k ≠ .tagged t y) ∧ ∀ x, k = .scalar x → isBlockScalar cfg x = false

/-- neither aliases nor bad values, and no tags and no blocks as keys -/
def Simple (cfg : Config) : Yaml F → Prop
  | .seq [] => True
  | .seq (x :: xs) => Simple cfg x ∧ Simple cfg (.seq xs)
  | .map [] => True
  | .map ((k, v) :: es) => Simple cfg k ∧ PlainKey cfg k ∧ Simple cfg v ∧ Simple cfg (.map es)
  | .tagged _ x => Simple cfg x
  | .scalar _ => True
  | _ => False

theorem put_put (s : ESt) (a b : List Byte) : (s.put a).put b = s.put (a ++ b) := by simp [ESt.put]

theorem put_level (s : ESt) (a : List Byte) : (s.put a).level = s.level := rfl

theorem writeIndent_ind {cfg : Config} (h2 : cfg.bestIndent = 2) {s : ESt} {l : Nat} (h : s.level = l) : writeIndent cfg s = s.put (ind l) := by
  unfold writeIndent ind
  split
  · have : l = 0 := by omega
    subst this
    simp [ESt.put]
  · simp [h, h2, Nat.mul_comm]

theorem emitLines_txt {cfg : Config} (h2 : cfg.bestIndent = 2) {l : Nat} : ∀ {ls : List (List Byte)} {s : ESt}, s.level = l →
    emitLines cfg s ls = s.put (linesTxt l ls) := by
  intro ls
  induction ls with
  | nil => intro s _; simp [emitLines, linesTxt, ESt.put]
  | cons y ls ih =>
    intro s h
    rw [emitLines, writeIndent_ind h2 (l := l) (by simp [put_level, h]), ih (by simp [put_level, h])]
    simp [ESt.put, linesTxt]

theorem emitLiteral_txt {cfg : Config} (h2 : cfg.bestIndent = 2) {s : ESt} {l : Nat} (h : s.level + 1 = l) (v : List Byte) :
    emitLiteralBlock cfg s v = s.put (blockTxt l v) := by
  unfold emitLiteralBlock blockTxt
  dsimp only
  split <;> (rw [emitLines_txt h2 (l := l) (by simpa [put_level] using h)]; simp [ESt.put])

theorem emitScalar_txt {fo : FloatOps F} {cfg : Config} (h2 : cfg.bestIndent = 2) {s : ESt} {l : Nat} (h : s.level + 1 = l) (x : Scalar F) :
    emitScalar fo cfg s x = s.put (leafTxt fo cfg l x) := by
  cases x with
  | str v =>
    rw [emitScalar, leafTxt]
    split
    · exact emitLiteral_txt h2 h v
    · rw [scalarTxt]
      split <;> rfl
  | _ => rfl

theorem emitScalar_plain {fo : FloatOps F} {cfg : Config} {s : ESt} {x : Scalar F} (hb : isBlockScalar cfg x = false) :
    emitScalar fo cfg s x = s.put (scalarTxt fo x) := by
  cases x with
  | str v =>
    simp only [isBlockScalar] at hb
    simp only [emitScalar, scalarTxt, hb, if_neg Bool.false_ne_true]
    split <;> rfl
  | _ => rfl

theorem writeCollection_gap {cfg : Config} (h2 : cfg.bestIndent = 2) {s : ESt} {l : Nat} (h : s.level = l) (inline : Bool) (x : Yaml F) (b : Bool)
    (hb : b = true ↔ ¬ isNonEmptyCollection x) : writeCollection cfg inline b s = s.put (valGap cfg (l + 1) inline x) := by
  unfold writeCollection valGap
  by_cases hc : (inline && cfg.compact) = true
  · rw [if_pos (by simp only [hc, Bool.true_or]), if_neg (by simp [hc])]
  · rw [Bool.not_eq_true] at hc
    cases b with
    | true => rw [if_pos (by simp), if_neg (by have := hb.1 rfl; simp [this])]
    | false =>
      have : isNonEmptyCollection x = true := by
        by_cases hx : isNonEmptyCollection x = true
        · exact hx
        · have := hb.2 hx; cases this
      rw [if_neg (by simp [hc]), if_pos ⟨this, hc⟩]
      dsimp only
      rw [writeIndent_ind h2 (l := l + 1) (by simp [put_level, h])]
      simp [ESt.put]

mutual
theorem emitNode_txt {fo : FloatOps F} {cfg : Config} (h2 : cfg.bestIndent = 2) {s : ESt} {l : Nat} (x : Yaml F)
    (hx : Simple cfg x) (h : s.level + 1 = l) : emitNode fo cfg s x = s.put (nodeTxt fo cfg l x) := by
  match x with
  | .seq xs => rw [emitNode, nodeTxt]; exact emitSeq_txt h2 xs hx h
  | .map es => rw [emitNode, nodeTxt]; exact emitMap_txt h2 es hx h
  | .scalar v => rw [emitNode, nodeTxt]; exact emitScalar_txt h2 h v
  | .bad => simp [Simple] at hx
  | .tagged t y =>
    rw [Simple] at hx
    rw [emitNode, nodeTxt]
    try dsimp only
    by_cases hc : isNonEmptyCollection y = true
    · rw [if_pos hc, if_pos hc, writeIndent_ind h2 (l := l) (by simp [put_level, h])]
      rw [emitNode_txt h2 y hx (l := l) (by simp [put_level]; omega)]
      simp [ESt.put]
    · rw [if_neg hc, if_neg hc, emitNode_txt h2 y hx (l := l) (by simp [put_level, h])]
      simp [ESt.put]
  | .alias _ => simp [Simple] at hx
theorem emitSeq_txt {fo : FloatOps F} {cfg : Config} (h2 : cfg.bestIndent = 2) {s : ESt} {l : Nat} (xs : List (Yaml F))
    (hx : Simple cfg (.seq xs)) (h : s.level + 1 = l) : emitSequence fo cfg s xs = s.put (seqTxt fo cfg l xs) := by
  match xs with
  | [] => rfl
  | x :: xs =>
    simp only [Simple] at hx
    rw [emitSequence, seqTxt]
    try dsimp only
    rw [emitVal_txt h2 x hx.1 (l := l) (by simp [put_level, h]), emitItems_txt h2 xs hx.2 (l := l) (by simp [put_level, h])]
    simp [ESt.put]
theorem emitItems_txt {fo : FloatOps F} {cfg : Config} (h2 : cfg.bestIndent = 2) {s : ESt} {l : Nat} (xs : List (Yaml F))
    (hx : Simple cfg (.seq xs)) (h : s.level = l) : emitItems fo cfg s xs = s.put (itemsTxt fo cfg l xs) := by
  match xs with
  | [] => simp [emitItems, itemsTxt, ESt.put]
  | x :: xs =>
    simp only [Simple] at hx
    rw [emitItems, itemsTxt]
    try dsimp only
    rw [writeIndent_ind h2 (l := l) (by simp [put_level, h]),
      emitVal_txt h2 x hx.1 (l := l) (by simp [put_level, h]), emitItems_txt h2 xs hx.2 (l := l) (by simp [put_level, h])]
    simp [ESt.put]
theorem emitMap_txt {fo : FloatOps F} {cfg : Config} (h2 : cfg.bestIndent = 2) {s : ESt} {l : Nat} (es : List (Yaml F × Yaml F))
    (hx : Simple cfg (.map es)) (h : s.level + 1 = l) : emitMapping fo cfg s es = s.put (mapTxt fo cfg l es) := by
  match es with
  | [] => rfl
  | e :: es =>
    have hx : Simple cfg e.1 ∧ PlainKey cfg e.1 ∧ Simple cfg e.2 ∧ Simple cfg (.map es) := by obtain ⟨k, v⟩ := e; simpa [Simple] using hx
    rw [emitMapping, mapTxt]
    try dsimp only
    rw [emitEntry_txt h2 e hx.1 hx.2.1 hx.2.2.1 (l := l) (by simp [h]), emitEntries_txt h2 es hx.2.2.2 (l := l) (by simp [put_level, h])]
    simp [ESt.put]
theorem emitEntries_txt {fo : FloatOps F} {cfg : Config} (h2 : cfg.bestIndent = 2) {s : ESt} {l : Nat} (es : List (Yaml F × Yaml F))
    (hx : Simple cfg (.map es)) (h : s.level = l) : emitEntries fo cfg s es = s.put (entriesTxt fo cfg l es) := by
  match es with
  | [] => simp [emitEntries, entriesTxt, ESt.put]
  | e :: es =>
    have hx : Simple cfg e.1 ∧ PlainKey cfg e.1 ∧ Simple cfg e.2 ∧ Simple cfg (.map es) := by obtain ⟨k, v⟩ := e; simpa [Simple] using hx
    rw [emitEntries, entriesTxt]
    try dsimp only
    rw [writeIndent_ind h2 (l := l) (by simp [put_level, h]),
      emitEntry_txt h2 e hx.1 hx.2.1 hx.2.2.1 (l := l) (by simp [put_level, h]), emitEntries_txt h2 es hx.2.2.2 (l := l) (by simp [put_level, h])]
    simp [ESt.put]
theorem emitEntry_txt {fo : FloatOps F} {cfg : Config} (h2 : cfg.bestIndent = 2) {s : ESt} {l : Nat} (e : Yaml F × Yaml F)
    (hk : Simple cfg e.1) (hnt : PlainKey cfg e.1) (hv : Simple cfg e.2) (h : s.level = l) : emitEntry fo cfg s e = s.put (entryTxt fo cfg l e) := by
  match e with
  | (k, v) =>
  rw [emitEntry, entryTxt]
  split
  · rw [emitVal_txt h2 k hk (l := l) (by simp [put_level, h])]
    try dsimp only
    rw [writeIndent_ind h2 (l := l) (by simp [put_level, h]), emitVal_txt h2 v hv (l := l) (by simp [put_level, h])]
    simp [ESt.put]
  · rename_i hc
    have hk' : emitNode fo cfg s k = s.put (nodeTxt fo cfg l k) := by
      match k with
      | .seq xs => simp [isComplexKey] at hc
      | .map xs => simp [isComplexKey] at hc
      | .scalar x => rw [emitNode, nodeTxt, leafTxt_plain (hnt.2 x rfl)]; exact emitScalar_plain (hnt.2 x rfl)
      | .bad => simp [Simple] at hk
      | .tagged t y => exact absurd rfl (hnt.1 t y)
      | .alias _ => simp [Simple] at hk
    rw [hk']
    try dsimp only
    rw [emitVal_txt h2 v hv (l := l) (by simp [put_level, h])]
    simp [ESt.put]
theorem emitVal_txt {fo : FloatOps F} {cfg : Config} (h2 : cfg.bestIndent = 2) {s : ESt} {l : Nat} {inline : Bool} (x : Yaml F)
    (hx : Simple cfg x) (h : s.level = l) : emitVal fo cfg inline s x = s.put (valGap cfg (l + 1) inline x ++ nodeTxt fo cfg (l + 1) x) := by
  match x with
  | .seq xs =>
    rw [emitVal, nodeTxt, writeCollection_gap h2 h inline (.seq xs) _ (by cases xs <;> simp [isNonEmptyCollection]),
      emitSeq_txt h2 xs hx (l := l + 1) (by simp [put_level, h])]
    simp [ESt.put]
  | .map es =>
    rw [emitVal, nodeTxt, writeCollection_gap h2 h inline (.map es) _ (by cases es <;> simp [isNonEmptyCollection]),
      emitMap_txt h2 es hx (l := l + 1) (by simp [put_level, h])]
    simp [ESt.put]
  | .scalar v =>
    rw [emitVal, nodeTxt, emitScalar_txt h2 (l := l + 1) (by simp [put_level, h]) v]
    simp [valGap, isNonEmptyCollection, ESt.put]
  | .bad => simp [Simple] at hx
  | .tagged t y =>
    have hv : valGap cfg (l + 1) inline (.tagged t y : Yaml F) = [32] := by simp [valGap, isNonEmptyCollection]
    rw [Simple] at hx
    rw [emitVal, nodeTxt, hv]
    try dsimp only
    by_cases hc : isNonEmptyCollection y = true
    · rw [if_pos hc, if_pos hc, writeIndent_ind h2 (l := l + 1) (by simp [put_level, h])]
      rw [emitNode_txt h2 y hx (l := l + 1) (by simp [put_level]; omega)]
      simp [ESt.put]
    · rw [if_neg hc, if_neg hc, emitNode_txt h2 y hx (l := l + 1) (by simp [put_level, h])]
      simp [ESt.put]
  | .alias _ => simp [Simple] at hx
end

theorem dump_txt {fo : FloatOps F} {cfg : Config} (h2 : cfg.bestIndent = 2) {x : Yaml F} (hx : Simple cfg x) :
    dump fo cfg x = bs!"---\n" ++ nodeTxt fo cfg 0 x := by
  rw [dump, emitNode_txt h2 x hx (l := 0) rfl]
  rfl

end Verif.Emitter
