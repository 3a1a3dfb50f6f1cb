import Verif.Ser.Model

/-!
# Values of the C++ types, and the types whose encoding is unambiguous
-/

namespace Verif.Ser

/-- An integer of the type -/
def InRange (signed : Bool) (bits : Nat) (i : Int) : Prop :=
  if signed then -2 ^ (bits - 1) ≤ i ∧ i < 2 ^ (bits - 1) else 0 ≤ i ∧ i < 2 ^ bits

/-- At most six significant decimal digits -/
def SixDigits (i : Int) : Prop := ∃ m k : Nat, m < 1000000 ∧ i.natAbs = m * 10 ^ k

/-- Types of which a value may be written as null -/
def Ty.nullable : Ty → Prop
  | .opt _ => True
  | .ptr _ => True
  | .poly _ => True
  | _ => False

/-- The property names of a class -/
def Fields.names : Fields → List Str
  | .nil => []
  | .cons n _ fs => n :: fs.names
  | .opt n _ fs => n :: fs.names

/-- The class names -/
def Classes.names : Classes → List Str
  | .nil => []
  | .cons n _ cs => n :: cs.names

mutual
/-- The value is one of the type: integers in range, sets and maps sorted -/
def Ty.Fits (E : Env) (less : Less E) : (t : Ty) → t.Val E → Prop
  | .int signed bits, (v : Int) => InRange signed bits v
  | .bool, _ => True
  | .str, _ => True
  | .bytes, _ => True
  | .double, (v : Int) => SixDigits v
  | .empty, _ => True
  | .rep _, _ => True
  | .opt _, none => True
  | .opt t, some v => t.Fits E less v
  | .pair a b, v => a.Fits E less v.1 ∧ b.Fits E less v.2
  | .vec t, (v : List (t.Val E)) => ∀ x ∈ v, t.Fits E less x
  | .set t, (v : List (t.Val E)) => (∀ x ∈ v, t.Fits E less x) ∧ v.Pairwise fun x y => less t x y = true ∧ less t y x = false
  | .map k w, (v : List (k.Val E × w.Val E)) =>
    (∀ x ∈ v, k.Fits E less x.1 ∧ w.Fits E less x.2) ∧
      v.Pairwise fun x y => less k x.1 y.1 = true ∧ less k y.1 x.1 = false
  | .strMap w, (v : List (Str × w.Val E)) =>
    (∀ x ∈ v, w.Fits E less x.2) ∧
      v.Pairwise fun x y => less .str x.1 y.1 = true ∧ less .str y.1 x.1 = false
  | .variant as, v => as.Fits E less v
  | .obj fs, v => fs.Fits E less v
  | .ptr _, none => True
  | .ptr fs, some v => fs.Fits E less v
  | .poly _, none => True
  | .poly cs, some v => cs.Fits E less v
/-- the same for variants -/
def Alts.Fits (E : Env) (less : Less E) : (as : Alts) → as.Val E → Prop
  | .one t, v => t.Fits E less v
  | .cons t _, .inl v => t.Fits E less v
  | .cons _ as, .inr v => as.Fits E less v
/-- the same for members -/
def Fields.Fits (E : Env) (less : Less E) : (fs : Fields) → fs.Val E → Prop
  | .nil, _ => True
  | .cons _ t fs, v => t.Fits E less v.1 ∧ fs.Fits E less v.2
  | .opt _ t fs, v => (∀ x, v.1 = some x → t.Fits E less x) ∧ fs.Fits E less v.2
/-- the same for objects of several classes -/
def Classes.Fits (E : Env) (less : Less E) : (cs : Classes) → cs.Val E → Prop
  | .cons _ fs _, .inl v => fs.Fits E less v
  | .cons _ _ cs, .inr v => cs.Fits E less v
end

mutual
/-- No optional of something that is itself written as null, no empty element of a list, no two
properties or classes of one name, and texts that are parsed back -/
def Ty.Ok (E : Env) : Ty → Prop
  | .int _ bits => 1 ≤ bits ∧ bits ≤ 64
  | .bool => True
  | .str => True
  | .bytes => True
  | .double => True
  | .empty => False
  | .rep k => ∀ x, (E.toText k x = [] → x = E.dflt k) ∧ (E.toText k x ≠ [] → E.ofText k (E.toText k x) = some x)
  | .opt t => t.Ok E ∧ ¬ t.nullable
  | .pair a b => a.Ok E ∧ b.Ok E
  | .vec t => t.Ok E
  | .set t => t.Ok E
  | .map k w => k.Ok E ∧ w.Ok E
  | .strMap w => w.Ok E
  | .variant as => as.Ok E ∧ as.count < 2 ^ 63
  | .obj fs => fs.Ok E
  | .ptr fs => fs.Ok E
  | .poly cs => cs.Ok E
/-- the same for the alternatives of a variant, which may be empty -/
def Alts.Ok (E : Env) : Alts → Prop
  | .one t => t = .empty ∨ t.Ok E
  | .cons t as => (t = .empty ∨ t.Ok E) ∧ as.Ok E
/-- the same for members -/
def Fields.Ok (E : Env) : Fields → Prop
  | .nil => True
  | .cons n t fs => t.Ok E ∧ n ∉ fs.names ∧ fs.Ok E
  | .opt n t fs => t.Ok E ∧ ¬ t.nullable ∧ n ∉ fs.names ∧ fs.Ok E
/-- the same for classes -/
def Classes.Ok (E : Env) : Classes → Prop
  | .nil => True
  | .cons n fs cs => fs.Ok E ∧ ".class".toList ∉ fs.names ∧ n ∉ cs.names ∧ cs.Ok E
end

mutual
/-- Nothing stale in the object that is read into: where the value has a null optional member of a composite, so has the object -/
def Ty.Clean (E : Env) : (t : Ty) → (v old : t.Val E) → Prop
  | .pair a b, v, old => a.Clean E v.1 old.1 ∧ b.Clean E v.2 old.2
  | .obj fs, v, old => fs.Clean E v old
  | _, _, _ => True
/-- the same for members -/
def Fields.Clean (E : Env) : (fs : Fields) → (v old : fs.Val E) → Prop
  | .nil, _, _ => True
  | .cons _ t fs, v, old => t.Clean E v.1 old.1 ∧ fs.Clean E v.2 old.2
  | .opt _ _ fs, v, old => (v.1 = none → old.1 = none) ∧ fs.Clean E v.2 old.2
end

mutual
/-- No optional member of a composite is read in place -/
def Ty.Direct : Ty → Prop
  | .pair a b => a.Direct ∧ b.Direct
  | .obj fs => fs.Direct
  | _ => True
/-- the same for members -/
def Fields.Direct : Fields → Prop
  | .nil => True
  | .cons _ t fs => t.Direct ∧ fs.Direct
  | .opt _ _ _ => False
end

end Verif.Ser
