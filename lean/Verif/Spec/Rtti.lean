import Verif.Model.Rtti

/-!
The wire format of type descriptors as documented in include/smx/smx-typeinfo.h:52-80 and 199-265, as a
relation between byte strings and types, with no reference to any parser.
-/
namespace Verif.Rtti

/-- A little-endian base-128 number: every byte but the last has its top bit set. -/
inductive Varint : List Byte → Nat → Prop where
  | last (b : Byte) (h : b.toNat < 128) : Varint [b] b.toNat
  | more (b : Byte) (v : List Byte) (n : Nat) (h : 128 ≤ b.toNat) (hv : Varint v n) :
      Varint (b :: v) (b.toNat % 128 + 128 * n)

/-- A 32-bit compact integer of at most five bytes. -/
def Compact (v : List Byte) (n : Nat) : Prop := Varint v n ∧ n < 2 ^ 32 ∧ v.length ≤ 5

/-- Qualifiers in front of a type. -/
structure Qual where
  const : Bool
  byRef : Bool

def Qual.bytes (q : Qual) : List Byte :=
  (if q.const then [kConst] else []) ++ (if q.byRef then [kByRef] else [])

/-- Apply the by-reference mark. -/
def markRef (r : Bool) (t : Rtti) : Rtti := if r then t.setByRef else t
/-- Apply the const mark. -/
def markConst (c : Bool) (t : Rtti) : Rtti := if c then t.setConst else t

mutual
/-- `Core bs t k`: `bs` describes the unqualified type `t`; `k` tells whether a nested element type was
marked const. -/
inductive Core : List Byte → Rtti → Bool → Prop where
  | plain (t : Byte) (h : isPlain t = true) : Core [t] (.plain t) false
  | indexed (t : Byte) (v : List Byte) (i : Nat) (h : isIndexed t = true) (hv : Compact v i) :
      Core (t :: v) (.indexed t i) false
  | fixed (v : List Byte) (n : Nat) (q : Qual) (c : List Byte) (t : Rtti) (k : Bool)
      (hv : Compact v n) (hc : Core c t k) :
      Core (kFixedArray :: (v ++ (q.bytes ++ c))) (.wrap kFixedArray n (some (markRef q.byRef t))) (q.const || k)
  | array (q : Qual) (c : List Byte) (t : Rtti) (k : Bool) (hc : Core c t k) :
      Core (kArray :: (q.bytes ++ c)) (.wrap kArray 0 (some (markRef q.byRef t))) (q.const || k)
  | func (s : List Byte) (t : Rtti) (hs : Sig s t) : Core (kFunction :: s) t false

/-- `Sig bs t`: `bs` is a function signature: argument count, optional variadic mark, return type,
parameters.  The count byte must differ from `kFunction` (see `C35_fifty_arguments_rejected`). -/
inductive Sig : List Byte → Rtti → Prop where
  | mk (argc : Byte) (variadic : Bool) (ret : List Byte) (rt : Rtti) (ps : List Byte) (args : List Rtti)
      (hargc : argc ≠ kFunction) (hret : Ret ret rt) (hps : Params argc.toNat ps args) :
      Sig (argc :: ((if variadic then [kLegacyVariadic] else []) ++ (ret ++ ps)))
        (.function (some rt) variadic (args.map some))

/-- A return type: void or a type. -/
inductive Ret : List Byte → Rtti → Prop where
  | void : Ret [kVoid] (.plain kVoid)
  | type (q : Qual) (c : List Byte) (t : Rtti) (k : Bool) (hc : Core c t k) :
      Ret (q.bytes ++ c) (markConst (q.const || k) (markRef q.byRef t))

/-- Parameters: each an optional by-reference mark and a type. -/
inductive Params : Nat → List Byte → List Rtti → Prop where
  | nil : Params 0 [] []
  | cons (n : Nat) (r : Bool) (q : Qual) (c : List Byte) (t : Rtti) (k : Bool) (ps : List Byte) (args : List Rtti)
      (hc : Core c t k) (hps : Params n ps args) :
      Params (n + 1) ((if r then [kByRef] else []) ++ (q.bytes ++ (c ++ ps)))
        (markRef r (markConst (q.const || k) (markRef q.byRef t)) :: args)
end

/-- `Desc bs t`: `bs` is a complete type descriptor of `t`. -/
def Desc (bs : List Byte) (t : Rtti) : Prop :=
  ∃ (q : Qual) (c : List Byte) (u : Rtti) (k : Bool),
    Core c u k ∧ bs = q.bytes ++ c ∧ t = markConst (q.const || k) (markRef q.byRef u)

/-! ## What a compiler type should look like to the VM -/

/-- The VM's view of an element type. -/
def viewBase : CBase → Rtti
  | .bool => .plain kBool
  | .any => .plain kAny
  | .char => .plain kChar8
  | .float => .plain kFloat32
  | .int => .plain kInt32
  | .int64 => .plain kInt64
  | .void => .plain kVoid
  | .pstruct i => .indexed kClassdef i.toNat
  | .function => .plain kTopFunction
  | .functionPtr i => .indexed kFunctionPtr i.toNat
  | .typeset i => .indexed kTypeset i.toNat
  | .enumStruct i => .indexed kEnumStruct i.toNat
  | .enum i => .indexed kEnum i.toNat

/-- One array dimension around an element: fixed size, or unknown. -/
def viewDim (size : BitVec 32) (inner : Rtti) : Rtti :=
  if size = 0 then .wrap kArray 0 (some inner) else .wrap kFixedArray size.toNat (some inner)

def viewArray : CArray → Rtti
  | .last size b => viewDim size (viewBase b)
  | .dim size a => viewDim size (viewArray a)

def viewType : CType → Rtti
  | .base b => viewBase b
  | .ref b => (viewBase b).setByRef
  | .array a => viewArray a

/-- The VM's view of a qualified type. -/
def viewQual (q : CQual) : Rtti := markConst q.isConst (viewType q.type)

/-- The VM's view of a signature. -/
def viewSig (s : CSig) : Rtti :=
  .function (some (viewQual s.ret)) s.variadic (s.args.map fun q => some (viewQual q))

/-- The element type of an array. -/
def CArray.elem : CArray → CBase
  | .last _ b => b
  | .dim _ a => a.elem

/-- The element type of any type. -/
def CType.elem : CType → CBase
  | .base b => b
  | .ref b => b
  | .array a => a.elem

/-- A value type: nothing is made of void. -/
def CQual.IsValue (q : CQual) : Prop := q.type.elem ≠ .void

/-- A return type: a value type, or plain void. -/
def CQual.IsReturn (q : CQual) : Prop := q.IsValue ∨ q = ⟨false, .base .void⟩

/-- A signature the wire format can carry. -/
structure CSig.Encodable (s : CSig) : Prop where
  ret : s.ret.IsReturn
  args : ∀ a ∈ s.args, a.IsValue
  count : s.args.length < 256
  count' : s.args.length ≠ 50

/-- A computation of the model that ends with `rest` and `a` whenever its recursion bound is large enough. -/
def Ends {α : Type} (f : Nat → PRes α) (rest : List Byte) (a : α) : Prop := ∃ N, ∀ n, N ≤ n → f n = .ok rest a

end Verif.Rtti
