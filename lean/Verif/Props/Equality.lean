import Verif.Model.Equality
/-!
# Property C67: comparing nodes with `==` and cloning them
-/
namespace Verif.Props
open Verif Verif.Equality
variable {F : Type}

mutual
/-- the floats that occur in a tree, in order -/
def floatsIn : Yaml F → List F
  | .scalar (.float f) => [f]
  | .seq xs => floatsInAll xs
  | .map es => floatsInEntries es
  | .tagged _ n => floatsIn n
  | _ => []
def floatsInAll : List (Yaml F) → List F
  | [] => []
  | x :: xs => floatsIn x ++ floatsInAll xs
def floatsInEntries : List (Yaml F × Yaml F) → List F
  | [] => []
  | (k, v) :: es => floatsIn k ++ floatsIn v ++ floatsInEntries es
end

mutual
/-- the tree with every float replaced -/
def mapFloats {G : Type} (g : F → G) : Yaml F → Yaml G
  | .bad => .bad
  | .scalar .null => .scalar .null
  | .scalar (.str s) => .scalar (.str s)
  | .scalar (.bool b) => .scalar (.bool b)
  | .scalar (.int i) => .scalar (.int i)
  | .scalar (.float f) => .scalar (.float (g f))
  | .seq xs => .seq (mapFloatsAll g xs)
  | .map es => .map (mapFloatsEntries g es)
  | .tagged t n => .tagged t (mapFloats g n)
  | .alias i => .alias i
def mapFloatsAll {G : Type} (g : F → G) : List (Yaml F) → List (Yaml G)
  | [] => []
  | x :: xs => mapFloats g x :: mapFloatsAll g xs
def mapFloatsEntries {G : Type} (g : F → G) : List (Yaml F × Yaml F) → List (Yaml G × Yaml G)
  | [] => []
  | (k, v) :: es => (mapFloats g k, mapFloats g v) :: mapFloatsEntries g es
end

/-- two lists of the same length whose members at the same place satisfy `r` -/
def Pairwise2 (r : F → F → Bool) : List F → List F → Prop
  | [], [] => True
  | a :: xs, b :: ys => r a b = true ∧ Pairwise2 r xs ys
  | _, _ => False

/-- the tree without its floats -/
abbrev skeleton (n : Yaml F) : Yaml Unit := mapFloats (fun _ => ()) n

theorem pairwise2_append (r : F → F → Bool) : ∀ (a b c d : List F), a.length = b.length →
    (Pairwise2 r (a ++ c) (b ++ d) ↔ Pairwise2 r a b ∧ Pairwise2 r c d)
  | [], [], c, d, _ => by simp [Pairwise2]
  | x :: a, y :: b, c, d, h => by
      have := pairwise2_append r a b c d (by simpa using h)
      simp [Pairwise2, this, and_assoc]
  | [], _ :: _, _, _, h => by simp at h
  | _ :: _, [], _, _, h => by simp at h

mutual
theorem skeleton_floats : ∀ (a b : Yaml F), skeleton a = skeleton b → (floatsIn a).length = (floatsIn b).length
  | .bad, b, h => by rcases b with _ | (_ | _ | _ | _ | _) | _ | _ | _ | _ <;> simp_all [skeleton, mapFloats, floatsIn]
  | .alias _, b, h => by rcases b with _ | (_ | _ | _ | _ | _) | _ | _ | _ | _ <;> simp_all [skeleton, mapFloats, floatsIn]
  | .scalar s, b, h => by
      rcases s with _ | _ | _ | _ | _ <;> rcases b with _ | (_ | _ | _ | _ | _) | _ | _ | _ | _ <;> simp_all [skeleton, mapFloats, floatsIn]
  | .seq xs, b, h => by
      rcases b with _ | (_ | _ | _ | _ | _) | ys | _ | _ | _ <;> simp [skeleton, mapFloats] at h
      simpa [floatsIn] using skeleton_floatsAll xs ys h
  | .map xs, b, h => by
      rcases b with _ | (_ | _ | _ | _ | _) | _ | ys | _ | _ <;> simp [skeleton, mapFloats] at h
      simpa [floatsIn] using skeleton_floatsEntries xs ys h
  | .tagged t n, b, h => by
      rcases b with _ | (_ | _ | _ | _ | _) | _ | _ | ⟨u, m⟩ | _ <;> simp [skeleton, mapFloats] at h
      simpa [floatsIn] using skeleton_floats n m h.2
theorem skeleton_floatsAll : ∀ (a b : List (Yaml F)), mapFloatsAll (fun _ => ()) a = mapFloatsAll (fun _ => ()) b →
    (floatsInAll a).length = (floatsInAll b).length
  | [], [], _ => rfl
  | [], _ :: _, h => by simp [mapFloatsAll] at h
  | _ :: _, [], h => by simp [mapFloatsAll] at h
  | x :: a, y :: b, h => by
      simp [mapFloatsAll] at h
      have := skeleton_floats x y h.1
      have := skeleton_floatsAll a b h.2
      simp [floatsInAll]; omega
theorem skeleton_floatsEntries : ∀ (a b : List (Yaml F × Yaml F)), mapFloatsEntries (fun _ => ()) a = mapFloatsEntries (fun _ => ()) b →
    (floatsInEntries a).length = (floatsInEntries b).length
  | [], [], _ => rfl
  | [], (_, _) :: _, h => by simp [mapFloatsEntries] at h
  | (_, _) :: _, [], h => by simp [mapFloatsEntries] at h
  | (k, v) :: a, (k', v') :: b, h => by
      simp [mapFloatsEntries] at h
      have := skeleton_floats k k' h.1.1
      have := skeleton_floats v v' h.1.2
      have := skeleton_floatsEntries a b h.2
      simp [floatsInEntries]; omega
end

mutual
theorem eqNode_iff (r : F → F → Bool) : ∀ (a b : Yaml F), eqNode r a b = true ↔ skeleton a = skeleton b ∧ Pairwise2 r (floatsIn a) (floatsIn b)
  | .bad, b => by rcases b with _ | (_ | _ | _ | _ | _) | _ | _ | _ | _ <;> simp [eqNode, skeleton, mapFloats, floatsIn, Pairwise2]
  | .alias _, b => by rcases b with _ | (_ | _ | _ | _ | _) | _ | _ | _ | _ <;> simp [eqNode, skeleton, mapFloats, floatsIn, Pairwise2]
  | .scalar s, b => by
      rcases s with _ | _ | _ | _ | _ <;> rcases b with _ | (_ | _ | _ | _ | _) | _ | _ | _ | _ <;>
        simp [eqNode, eqScalar, skeleton, mapFloats, floatsIn, Pairwise2]
  | .seq xs, b => by
      rcases b with _ | (_ | _ | _ | _ | _) | ys | _ | _ | _ <;> simp [eqNode, skeleton, mapFloats]
      simpa [floatsIn] using eqVec_iff r xs ys
  | .map xs, b => by
      rcases b with _ | (_ | _ | _ | _ | _) | _ | ys | _ | _ <;> simp [eqNode, skeleton, mapFloats]
      simpa [floatsIn] using eqEntries_iff r xs ys
  | .tagged t n, b => by
      rcases b with _ | (_ | _ | _ | _ | _) | _ | _ | ⟨u, m⟩ | _ <;> simp [eqNode, skeleton, mapFloats]
      have := eqNode_iff r n m
      simp only [skeleton] at this
      simp [floatsIn, this, and_assoc]
theorem eqVec_iff (r : F → F → Bool) : ∀ (a b : List (Yaml F)),
    eqVec r a b = true ↔ mapFloatsAll (fun _ => ()) a = mapFloatsAll (fun _ => ()) b ∧ Pairwise2 r (floatsInAll a) (floatsInAll b)
  | [], [] => by simp [eqVec, mapFloatsAll, floatsInAll, Pairwise2]
  | [], _ :: _ => by simp [eqVec, mapFloatsAll]
  | _ :: _, [] => by simp [eqVec, mapFloatsAll]
  | x :: a, y :: b => by
      have h1 := eqNode_iff r x y
      have h2 := eqVec_iff r a b
      simp only [eqVec, mapFloatsAll, floatsInAll, Bool.and_eq_true, h1, h2, List.cons.injEq]
      constructor
      · rintro ⟨⟨a1, a2⟩, a3, a4⟩
        exact ⟨⟨a1, a3⟩, (pairwise2_append r _ _ _ _ (skeleton_floats x y a1)).2 ⟨a2, a4⟩⟩
      · rintro ⟨⟨a1, a3⟩, a2⟩
        have := (pairwise2_append r _ _ _ _ (skeleton_floats x y a1)).1 a2
        exact ⟨⟨a1, this.1⟩, a3, this.2⟩
theorem eqEntries_iff (r : F → F → Bool) : ∀ (a b : List (Yaml F × Yaml F)),
    eqEntries r a b = true ↔ mapFloatsEntries (fun _ => ()) a = mapFloatsEntries (fun _ => ()) b ∧ Pairwise2 r (floatsInEntries a) (floatsInEntries b)
  | [], [] => by simp [eqEntries, mapFloatsEntries, floatsInEntries, Pairwise2]
  | [], (_, _) :: _ => by simp [eqEntries, mapFloatsEntries]
  | (_, _) :: _, [] => by simp [eqEntries, mapFloatsEntries]
  | (k, v) :: a, (k', v') :: b => by
      have h1 := eqNode_iff r k k'
      have h2 := eqNode_iff r v v'
      have h3 := eqEntries_iff r a b
      simp only [eqEntries, mapFloatsEntries, floatsInEntries, Bool.and_eq_true, h1, h2, h3, List.cons.injEq, Prod.mk.injEq]
      constructor
      · rintro ⟨⟨⟨a1, a2⟩, b1, b2⟩, a3, a4⟩
        refine ⟨⟨⟨a1, b1⟩, a3⟩, (pairwise2_append r _ _ _ _ ?_).2 ⟨(pairwise2_append r _ _ _ _ (skeleton_floats k k' a1)).2 ⟨a2, b2⟩, a4⟩⟩
        simp [skeleton_floats k k' a1, skeleton_floats v v' b1]
      · rintro ⟨⟨⟨a1, b1⟩, a3⟩, a2⟩
        have := (pairwise2_append r _ _ _ _ (by simp [skeleton_floats k k' a1, skeleton_floats v v' b1])).1 a2
        have h4 := (pairwise2_append r _ _ _ _ (skeleton_floats k k' a1)).1 this.1
        exact ⟨⟨⟨a1, h4.1⟩, b1, h4.2⟩, a3, this.2⟩
end

mutual
theorem cloneNode_eq : ∀ n : Yaml F, cloneNode n = n
  | .bad => rfl
  | .alias _ => rfl
  | .scalar s => by rcases s with _ | _ | _ | _ | _ <;> rfl
  | .seq xs => by simp [cloneNode, cloneVec_eq xs]
  | .map es => by simp [cloneNode, cloneEntries_eq es]
  | .tagged t n => by simp [cloneNode, cloneNode_eq n]
theorem cloneVec_eq : ∀ xs : List (Yaml F), cloneVec xs = xs
  | [] => rfl
  | x :: xs => by simp [cloneVec, cloneNode_eq x, cloneVec_eq xs]
theorem cloneEntries_eq : ∀ xs : List (Yaml F × Yaml F), cloneEntries xs = xs
  | [] => rfl
  | (k, v) :: xs => by simp [cloneEntries, cloneNode_eq k, cloneNode_eq v, cloneEntries_eq xs]
end

mutual
theorem tree_of_parts : ∀ (a b : Yaml F), skeleton a = skeleton b → floatsIn a = floatsIn b → a = b
  | .bad, b, h, g => by rcases b with _ | (_ | _ | _ | _ | _) | _ | _ | _ | _ <;> simp_all [skeleton, mapFloats, floatsIn]
  | .alias _, b, h, g => by rcases b with _ | (_ | _ | _ | _ | _) | _ | _ | _ | _ <;> simp_all [skeleton, mapFloats, floatsIn]
  | .scalar s, b, h, g => by
      rcases s with _ | _ | _ | _ | _ <;> rcases b with _ | (_ | _ | _ | _ | _) | _ | _ | _ | _ <;> simp_all [skeleton, mapFloats, floatsIn]
  | .seq xs, b, h, g => by
      rcases b with _ | (_ | _ | _ | _ | _) | ys | _ | _ | _ <;> simp [skeleton, mapFloats] at h
      rw [tree_of_partsAll xs ys h (by simpa [floatsIn] using g)]
  | .map xs, b, h, g => by
      rcases b with _ | (_ | _ | _ | _ | _) | _ | ys | _ | _ <;> simp [skeleton, mapFloats] at h
      rw [tree_of_partsEntries xs ys h (by simpa [floatsIn] using g)]
  | .tagged t n, b, h, g => by
      rcases b with _ | (_ | _ | _ | _ | _) | _ | _ | ⟨u, m⟩ | _ <;> simp [skeleton, mapFloats] at h
      rw [tree_of_parts n m h.2 (by simpa [floatsIn] using g), h.1]
theorem tree_of_partsAll : ∀ (a b : List (Yaml F)), mapFloatsAll (fun _ => ()) a = mapFloatsAll (fun _ => ()) b → floatsInAll a = floatsInAll b → a = b
  | [], [], _, _ => rfl
  | [], _ :: _, h, _ => by simp [mapFloatsAll] at h
  | _ :: _, [], h, _ => by simp [mapFloatsAll] at h
  | x :: a, y :: b, h, g => by
      simp [mapFloatsAll] at h
      simp only [floatsInAll] at g
      have := List.append_inj g (skeleton_floats x y h.1)
      rw [tree_of_parts x y h.1 this.1, tree_of_partsAll a b h.2 this.2]
theorem tree_of_partsEntries : ∀ (a b : List (Yaml F × Yaml F)), mapFloatsEntries (fun _ => ()) a = mapFloatsEntries (fun _ => ()) b →
    floatsInEntries a = floatsInEntries b → a = b
  | [], [], _, _ => rfl
  | [], (_, _) :: _, h, _ => by simp [mapFloatsEntries] at h
  | (_, _) :: _, [], h, _ => by simp [mapFloatsEntries] at h
  | (k, v) :: a, (k', v') :: b, h, g => by
      simp [mapFloatsEntries] at h
      simp only [floatsInEntries] at g
      have h1 := List.append_inj g (by simp [skeleton_floats k k' h.1.1, skeleton_floats v v' h.1.2])
      have h2 := List.append_inj h1.1 (skeleton_floats k k' h.1.1)
      rw [tree_of_parts k k' h.1.1 h2.1, tree_of_parts v v' h.1.2 h2.2, tree_of_partsEntries a b h.2 h1.2]
end

theorem pairwise2_exact (r : F → F → Bool) (h : ∀ x y, r x y = true ↔ x = y) : ∀ a b : List F, Pairwise2 r a b ↔ a = b
  | [], [] => by simp [Pairwise2]
  | [], _ :: _ => by simp [Pairwise2]
  | _ :: _, [] => by simp [Pairwise2]
  | x :: a, y :: b => by simp [Pairwise2, h, pairwise2_exact r h a b]

theorem pairwise2_self (r : F → F → Bool) : ∀ a : List F, Pairwise2 r a a ↔ ∀ x ∈ a, r x x = true
  | [] => by simp [Pairwise2]
  | x :: a => by simp [Pairwise2, pairwise2_self r a]

theorem pairwise2_symm (r : F → F → Bool) (h : ∀ x y, r x y = true → r y x = true) : ∀ a b : List F, Pairwise2 r a b → Pairwise2 r b a
  | [], [], g => g
  | [], _ :: _, g => g
  | _ :: _, [], g => g
  | x :: a, y :: b, g => ⟨h x y g.1, pairwise2_symm r h a b g.2⟩

theorem pairwise2_trans (r : F → F → Bool) (h : ∀ x y z, r x y = true → r y z = true → r x z = true) :
    ∀ a b c : List F, Pairwise2 r a b → Pairwise2 r b c → Pairwise2 r a c
  | [], [], [], _, _ => trivial
  | [], [], _ :: _, _, g => g.elim
  | [], _ :: _, _, g, _ => g.elim
  | _ :: _, [], _, g, _ => g.elim
  | _ :: _, _ :: _, [], _, g => g.elim
  | x :: a, y :: b, z :: c, f, g => ⟨h x y z f.1 g.1, pairwise2_trans r h a b c f.2 g.2⟩

/-- **C67 (partial)** Two nodes compare equal exactly if they are the same tree up to their floats, and the floats at the same places compare equal.
If floats compare equal only when they are the same, this is equality of trees. A clone is the same tree; it compares equal to the original exactly
if every float in it compares equal to itself. `==` is symmetric and transitive if the comparison of floats is. Partial: `==` on `f64`
does not have `NaN == NaN`, see `C67_nan_false`. -/
theorem C67_equality_partial (feq : F → F → Bool) (a b : Yaml F) :
    (eqNode feq a b = true ↔ skeleton a = skeleton b ∧ Pairwise2 feq (floatsIn a) (floatsIn b)) ∧
    ((∀ x y, feq x y = true ↔ x = y) → (eqNode feq a b = true ↔ a = b)) ∧
    cloneNode a = a ∧ (eqNode feq a (cloneNode a) = true ↔ ∀ f ∈ floatsIn a, feq f f = true) ∧
    ((∀ x y, feq x y = true → feq y x = true) → eqNode feq a b = true → eqNode feq b a = true) ∧
    ((∀ x y z, feq x y = true → feq y z = true → feq x z = true) →
      ∀ c, eqNode feq a b = true → eqNode feq b c = true → eqNode feq a c = true) := by
  refine ⟨eqNode_iff feq a b, fun h => ?_, cloneNode_eq a, ?_, fun h g => ?_, fun h c g k => ?_⟩
  · rw [eqNode_iff, pairwise2_exact feq h]
    exact ⟨fun g => tree_of_parts a b g.1 g.2, fun g => by simp [g]⟩
  · rw [cloneNode_eq, eqNode_iff, pairwise2_self]
    simp
  · rw [eqNode_iff] at g ⊢
    exact ⟨g.1.symm, pairwise2_symm feq h _ _ g.2⟩
  · rw [eqNode_iff] at g k ⊢
    exact ⟨g.1.trans k.1, pairwise2_trans feq h _ _ _ g.2 k.2⟩

/-- the hypotheses are met: two trees that differ in the sign of a zero only, with floats compared without the sign as `f64` does -/
example : eqNode (fun x y : Int => x.natAbs == y.natAbs)
      (.map [(.scalar (.str bs!"a"), .seq [.scalar (.float 1), .tagged ⟨bs!"!", bs!"t"⟩ .bad])])
      (.map [(.scalar (.str bs!"a"), .seq [.scalar (.float (-1)), .tagged ⟨bs!"!", bs!"t"⟩ .bad])]) = true ∧
    eqNode (fun x y : Int => x.natAbs == y.natAbs) (.seq [.alias 1, .scalar (.int 1)]) (.seq [.alias 1, .scalar (.float 1)]) = false := by
  decide

/-- C67 as stated: a node compares equal to its clone. -/
def C67_full (feq : F → F → Bool) : Prop := ∀ n : Yaml F, eqNode feq n (cloneNode n) = true

/-- **C67 as stated is false.** Wherever a number that does not equal itself stands in a tree, the tree does not equal its clone: `[.nan]` loaded
twice gives two trees that are not equal, and `assert_eq!(node, node.clone())` panics. -/
theorem C67_nan_false (feq : F → F → Bool) (nan : F) (h : feq nan nan = false) :
    ¬ C67_full feq ∧ ∀ n : Yaml F, nan ∈ floatsIn n → eqNode feq n n = false := by
  have key : ∀ n : Yaml F, nan ∈ floatsIn n → eqNode feq n n = false := by
    intro n hn
    rw [Bool.eq_false_iff]
    intro g
    have := (pairwise2_self feq _).1 ((eqNode_iff feq n n).1 g).2 nan hn
    simp [h] at this
  refine ⟨fun g => ?_, key⟩
  have h1 := g (.scalar (.float nan))
  rw [cloneNode_eq, key _ (by simp [floatsIn])] at h1
  exact absurd h1 (by simp)

/-- the hypotheses are met -/
example : (fun _ _ : Unit => false) () () = false ∧ () ∈ floatsIn (.seq [.scalar (.float ())]) := by decide

end Verif.Props
