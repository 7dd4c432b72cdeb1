/-!
Run-time type information: the compiler's encoder (libsmx/smx-encoding.h, compiler/rtti-builder.cpp) and
the VM's reader and validator (vm/rtti.cpp).

A parser position `bytes_ + offset_` is modelled by the list of bytes from there to the end of the blob.
Reading a byte at or beyond `length_` is undefined behaviour (`ub`).
-/
namespace Verif.Rtti

abbrev Byte := BitVec 8

/-! ## Control bytes, include/smx/smx-typeinfo.h:214-265 -/

def kBool : Byte := 0x01
def kInt32 : Byte := 0x06
def kInt64 : Byte := 0x07
def kFloat32 : Byte := 0x0c
def kChar8 : Byte := 0x0e
def kAny : Byte := 0x10
def kTopFunction : Byte := 0x11
def kFixedArray : Byte := 0x30
def kArray : Byte := 0x31
def kFunction : Byte := 0x32
def kFunctionPtr : Byte := 0x33
def kEnum : Byte := 0x42
def kObsoleteTypedef : Byte := 0x43
def kTypeset : Byte := 0x44
def kClassdef : Byte := 0x45
def kEnumStruct : Byte := 0x46
def kLocalSlots : Byte := 0x60
def kVoid : Byte := 0x70
def kLegacyVariadic : Byte := 0x71
def kByRef : Byte := 0x72
def kConst : Byte := 0x73

/-! ## Compact integers -/

/-- libsmx/smx-encoding.h:26-36 CompactEncodeUint32.  The argument stands for a uint32_t; the do-while loop
is a recursion on the value. -/
def compactEncode (value : Nat) : List Byte :=
  let byte := BitVec.ofNat 8 (value % 128)
  if h : value > 0x7f then (byte ||| 0x80) :: compactEncode (value / 128)
  else [byte]
termination_by value

/-- Outcome of a parser step: the remaining bytes and a result; a read outside the blob, a null
dereference or an undefined shift (`ub`); or an exhausted recursion bound of the model (`fuel`). -/
inductive PRes (α : Type) where
  | ok (rest : List Byte) (a : α)
  | ub
  | fuel
  deriving Repr

/-- vm/rtti.cpp:465-477 decodeUint32, from the value and shift accumulated so far.  Shifting by 32 or
more, or out of the range of uint32_t, is undefined (C++17 [expr.shift], AMBuildScript:149). -/
def decodeUintFrom (value shift : Nat) : List Byte → PRes Nat
  | [] => .ub
  | b :: rest =>
    let part := (b.toNat % 128) <<< shift
    if shift ≥ 32 ∨ part ≥ 2 ^ 32 then .ub
    else
      let value := value ||| part
      if b.toNat < 128 then .ok rest value
      else decodeUintFrom value (shift + 7) rest

/-- vm/rtti.cpp:465-477 decodeUint32. -/
def decodeUint (bs : List Byte) : PRes Nat := decodeUintFrom 0 0 bs

/-- vm/rtti.cpp:479-487 tryDecodeUint32: the bytes left, and whether it succeeded. -/
def tryDecodeUint : List Byte → List Byte × Bool
  | [] => ([], false)
  | b :: rest => if b.toNat < 128 then (rest, true) else tryDecodeUint rest

/-- vm/rtti.cpp:108-124 FastRtti::ReadCompactUint32; `none` is a `false` return. -/
def readCompactFrom (value shift : Nat) : List Byte → PRes (Option Nat)
  | [] => .ok [] none
  | b :: rest =>
    let part := (b.toNat % 128) <<< shift
    if part ≥ 2 ^ 32 then .ub
    else
      let value := value ||| part
      if b.toNat < 128 then .ok rest (some value)
      else if shift + 7 ≥ 32 then .ok rest none
      else readCompactFrom value (shift + 7) rest

/-- vm/rtti.cpp:108-124 FastRtti::ReadCompactUint32. -/
def readCompact (bs : List Byte) : PRes (Option Nat) := readCompactFrom 0 0 bs

/-! ## Decoded types -/

/-- vm/rtti.h:99-145 class Rtti.  A null `Rtti*` is `none`. -/
inductive Rtti where
  | mk (type : Byte) (index : Nat) (inner : Option Rtti) (isConst isByRef : Bool)
      (args : List (Option Rtti)) (isVariadic : Bool)

/-- vm/rtti.cpp:489-496, Rtti(type). -/
def Rtti.plain (type : Byte) : Rtti := .mk type 0 none false false [] false
/-- vm/rtti.cpp:498-505, Rtti(type, index). -/
def Rtti.indexed (type : Byte) (i : Nat) : Rtti := .mk type i none false false [] false
/-- vm/rtti.cpp:507-523, Rtti(type, [size,] inner). -/
def Rtti.wrap (type : Byte) (i : Nat) (inner : Option Rtti) : Rtti := .mk type i inner false false [] false
/-- vm/rtti.cpp:525-532 and 544-548, Rtti(return_type, variadic) followed by addArgument of each argument. -/
def Rtti.function (ret : Option Rtti) (variadic : Bool) (args : List (Option Rtti)) : Rtti :=
  .mk kFunction 0 ret false false args variadic
/-- vm/rtti.cpp:550-554, a typeset with its signatures. -/
def Rtti.typeset (sigs : List (Option Rtti)) : Rtti := .mk kTypeset 0 none false false sigs false
/-- vm/rtti.cpp:534-537. -/
def Rtti.setConst : Rtti → Rtti
  | .mk t i n _ r a v => .mk t i n true r a v
/-- vm/rtti.cpp:539-542. -/
def Rtti.setByRef : Rtti → Rtti
  | .mk t i n c _ a v => .mk t i n c true a v

/-- vm/rtti.cpp:456-463 match. -/
def matchByte (b : Byte) : List Byte → PRes Bool
  | [] => .ub
  | x :: rest => if x = b then .ok rest true else .ok (x :: rest) false

/-- Sequencing of parser steps. -/
def PRes.andThen {α β} (r : PRes α) (f : List Byte → α → PRes β) : PRes β :=
  match r with
  | .ok bs a => f bs a
  | .ub => .ub
  | .fuel => .fuel

/-- `bytes_[offset_++]`. -/
def nextByte : List Byte → PRes Byte
  | [] => .ub
  | b :: rest => .ok rest b

def isPlain (t : Byte) : Bool :=
  t == kBool || t == kInt32 || t == kInt64 || t == kFloat32 || t == kChar8 || t == kAny || t == kTopFunction

def isIndexed (t : Byte) : Bool :=
  t == kEnum || t == kObsoleteTypedef || t == kTypeset || t == kClassdef || t == kEnumStruct || t == kFunctionPtr

/-- `if (by_ref) result->setByRef()`; a null dereference is undefined. -/
def applyByRef (byRef : Bool) (r : Option Rtti) (bs : List Byte) : PRes (Option Rtti) :=
  if byRef then
    match r with
    | some t => .ok bs (some t.setByRef)
    | none => .ub
  else .ok bs r

mutual
/-- vm/rtti.cpp:263-309 decode.  The member `is_const_` is passed in and its new value is returned with the
type.  `fuel` bounds the recursion depth of the model only. -/
def decode : Nat → Bool → List Byte → PRes (Option Rtti × Bool)
  | 0, _, _ => .fuel
  | n+1, isConst, bs =>
    (matchByte kConst bs).andThen fun bs c =>
    let isConst := c || isConst
    (matchByte kByRef bs).andThen fun bs byRef =>
    (nextByte bs).andThen fun bs type =>
    (if isPlain type then .ok bs (some (Rtti.plain type), isConst)
     else if type = kFixedArray then
       (decodeUint bs).andThen fun bs size =>
       (decode n isConst bs).andThen fun bs (inner, isConst) =>
       .ok bs (some (Rtti.wrap type size inner), isConst)
     else if type = kArray then
       (decode n isConst bs).andThen fun bs (inner, isConst) =>
       .ok bs (some (Rtti.wrap type 0 inner), isConst)
     else if isIndexed type then
       (decodeUint bs).andThen fun bs index => .ok bs (some (Rtti.indexed type index), isConst)
     else if type = kFunction then
       (decodeFunction n bs).andThen fun bs f => .ok bs (some f, isConst)
     else .ok bs (none, isConst)).andThen fun bs (result, isConst) =>
    (applyByRef byRef result bs).andThen fun bs result => .ok bs (result, isConst)

/-- vm/rtti.cpp:250-261 decodeNew.  The caller's `is_const_` is restored, so it does not appear. -/
def decodeNew : Nat → List Byte → PRes (Option Rtti)
  | 0, _ => .fuel
  | n+1, bs =>
    (decode n false bs).andThen fun bs (result, isConst) =>
    if isConst then
      match result with
      | some t => .ok bs (some t.setConst)
      | none => .ub
    else .ok bs result

/-- vm/rtti.cpp:311-338 decodeFunction. -/
def decodeFunction : Nat → List Byte → PRes Rtti
  | 0, _ => .fuel
  | n+1, bs =>
    (nextByte bs).andThen fun bs argc =>
    (matchByte kLegacyVariadic bs).andThen fun bs variadic =>
    (matchByte kVoid bs).andThen fun bs void =>
    (if void then .ok bs (some (Rtti.plain kVoid)) else decodeNew n bs).andThen fun bs ret =>
    (decodeArgs n argc.toNat bs).andThen fun bs args =>
    .ok bs (Rtti.function ret variadic args)

/-- vm/rtti.cpp:330-336, the argument loop of decodeFunction, for the remaining number of arguments. -/
def decodeArgs : Nat → Nat → List Byte → PRes (List (Option Rtti))
  | 0, _, _ => .fuel
  | _+1, 0, bs => .ok bs []
  | n+1, k+1, bs =>
    (matchByte kByRef bs).andThen fun bs byRef =>
    (decodeNew n bs).andThen fun bs arg =>
    (applyByRef byRef arg bs).andThen fun bs arg =>
    (decodeArgs n k bs).andThen fun bs args => .ok bs (arg :: args)
end

/-- vm/rtti.cpp:345-347, the loop of decodeTypeset. -/
def decodeSigs (fuel : Nat) : Nat → List Byte → PRes (List (Option Rtti))
  | 0, bs => .ok bs []
  | k+1, bs =>
    (decodeNew fuel bs).andThen fun bs s =>
    (decodeSigs fuel k bs).andThen fun bs ss => .ok bs (s :: ss)

/-- vm/rtti.cpp:340-349 decodeTypeset. -/
def decodeTypeset (fuel : Nat) (bs : List Byte) : PRes Rtti :=
  (decodeUint bs).andThen fun bs count =>
  (decodeSigs fuel count bs).andThen fun bs ss => .ok bs (Rtti.typeset ss)

/-! ## Validation -/

/-- Continue a validation while it succeeds. -/
def PRes.andTry (r : PRes Bool) (f : List Byte → PRes Bool) : PRes Bool :=
  r.andThen fun bs b => if b then f bs else .ok bs false

/-- `if (offset_ >= length_) return false;` -/
def needByte (bs : List Byte) (k : PRes Bool) : PRes Bool := if bs = [] then .ok bs false else k

/-- Skip an indicator byte: a `match` whose result is ignored. -/
def skipByte (b : Byte) (bs : List Byte) (k : List Byte → PRes Bool) : PRes Bool :=
  (matchByte b bs).andThen fun bs _ => k bs

mutual
/-- vm/rtti.cpp:351-396 validate. -/
def validate : Nat → List Byte → PRes Bool
  | 0, _ => .fuel
  | n+1, bs =>
    needByte bs <|
    skipByte kConst bs fun bs => needByte bs <|
    skipByte kByRef bs fun bs => needByte bs <|
    (nextByte bs).andThen fun bs type =>
    if isPlain type then .ok bs true
    else if type = kFixedArray then
      let (bs, ok) := tryDecodeUint bs
      if ok then validate n bs else .ok bs false
    else if type = kArray then validate n bs
    else if isIndexed type then
      let (bs, ok) := tryDecodeUint bs
      .ok bs ok
    else if type = kFunction then validateFunction n bs
    else .ok bs false

/-- vm/rtti.cpp:398-437 validateFunction, the part before the argument loop. -/
def validateFunction : Nat → List Byte → PRes Bool
  | 0, _ => .fuel
  | n+1, bs =>
    needByte bs <|
    skipByte kFunction bs fun bs => needByte bs <|
    (nextByte bs).andThen fun bs argc => needByte bs <|
    skipByte kLegacyVariadic bs fun bs => needByte bs <|
    ((matchByte kVoid bs).andThen fun bs void => if void then .ok bs true else validate n bs).andTry fun bs =>
    validateArgs n argc.toNat bs

/-- vm/rtti.cpp:426-435, the argument loop of validateFunction. -/
def validateArgs : Nat → Nat → List Byte → PRes Bool
  | 0, _, _ => .fuel
  | _+1, 0, bs => .ok bs true
  | n+1, k+1, bs =>
    needByte bs <|
    skipByte kConst bs fun bs => needByte bs <|
    skipByte kByRef bs fun bs =>
    (validate n bs).andTry fun bs => validateArgs n k bs
end

/-- vm/rtti.cpp:449-452 of validateTypeset: one validation per signature. -/
def validateSigs (fuel : Nat) : Nat → List Byte → PRes Bool
  | 0, bs => .ok bs true
  | k+1, bs => (validate fuel bs).andTry fun bs => validateSigs fuel k bs

/-- vm/rtti.cpp:439-454 validateTypeset. -/
def validateTypeset (fuel : Nat) (bs : List Byte) : PRes Bool :=
  let (rest, ok) := tryDecodeUint bs
  if ok then (decodeUint bs).andThen fun bs count => validateSigs fuel count bs
  else .ok rest false

/-! ## Type identifiers -/

/-- vm/rtti.cpp:144-148, the four payload bytes of an inline type id. -/
def inlineBytes (payload : Nat) : List Byte :=
  [BitVec.ofNat 8 payload, BitVec.ofNat 8 (payload >>> 8), BitVec.ofNat 8 (payload >>> 16),
   BitVec.ofNat 8 (payload >>> 24)]

/-- vm/rtti.cpp:136-158 typeFromTypeId, on a blob; a null result is `none`. -/
def typeFromTypeId (fuel : Nat) (blob : List Byte) (id : Nat) : PRes (Option Rtti) :=
  let kind := id % 16
  let payload := (id >>> 4) % 2 ^ 28
  if kind = 0 then decodeNew fuel (inlineBytes payload)
  else if kind = 1 then decodeNew fuel (blob.drop payload)
  else .ok [] none

/-- vm/rtti.cpp:188-208 validateType. -/
def validateType (fuel : Nat) (blob : List Byte) (id : Nat) : PRes Bool :=
  let kind := id % 16
  let payload := (id >>> 4) % 2 ^ 28
  if kind = 0 then validate fuel (inlineBytes payload)
  else if kind = 1 then
    if payload ≥ blob.length then .ok [] false else validate fuel (blob.drop payload)
  else .ok [] false

/-! ## The compiler's side -/

/-- Element types reaching the end of compiler/rtti-builder.cpp:436-487.  Table and pool indexes assigned by
add_enum, add_struct, add_enumstruct, add_typeset and the type pool (lines 231-391) are carried in the type
instead of being allocated here. -/
inductive CBase where
  | bool | any | char | float | int | int64 | void
  | pstruct (index : BitVec 32)
  | function
  | functionPtr (offset : BitVec 32)
  | typeset (index : BitVec 32)
  | enumStruct (index : BitVec 32)
  | enum (index : BitVec 32)

/-- Array types: the loop of compiler/rtti-builder.cpp:442-453 over nested ArrayTypes.  Size 0 means unknown. -/
inductive CArray where
  | last (size : BitVec 32) (inner : CBase)
  | dim (size : BitVec 32) (inner : CArray)

/-- A compiler type: an element type, a reference to one, or an array. -/
inductive CType where
  | base (b : CBase)
  | ref (b : CBase)
  | array (a : CArray)

/-- A qualified type, compiler/qualtype.h. -/
structure CQual where
  isConst : Bool
  type : CType

/-- compiler/rtti-builder.cpp:459-486 with 393-430 and 489-504: the encoding of an element type. -/
def encodeBase : CBase → List Byte
  | .bool => [kBool]
  | .any => [kAny]
  | .char => [kChar8]
  | .float => [kFloat32]
  | .int => [kInt32]
  | .int64 => [kInt64]
  | .void => [kVoid]
  | .pstruct i => kClassdef :: compactEncode i.toNat
  | .function => [kTopFunction]
  | .functionPtr i => kFunctionPtr :: compactEncode i.toNat
  | .typeset i => kTypeset :: compactEncode i.toNat
  | .enumStruct i => kEnumStruct :: compactEncode i.toNat
  | .enum i => kEnum :: compactEncode i.toNat

/-- compiler/rtti-builder.cpp:443-448: one array dimension. -/
def encodeDim (size : BitVec 32) : List Byte :=
  if size.toNat ≠ 0 then kFixedArray :: compactEncode size.toNat else [kArray]

/-- compiler/rtti-builder.cpp:441-453, then the element type. -/
def encodeArray : CArray → List Byte
  | .last size b => encodeDim size ++ encodeBase b
  | .dim size inner => encodeDim size ++ encodeArray inner

/-- compiler/rtti-builder.cpp:440-487. -/
def encodeType : CType → List Byte
  | .base b => encodeBase b
  | .ref b => kByRef :: encodeBase b
  | .array a => encodeArray a

/-- compiler/rtti-builder.cpp:436-487 encode_type_into. -/
def encodeQual (q : CQual) : List Byte :=
  (if q.isConst then [kConst] else []) ++ encodeType q.type

/-- A function signature: compiler/types.h FunctionType. -/
structure CSig where
  variadic : Bool
  ret : CQual
  args : List CQual

/-- compiler/rtti-builder.cpp:506-517 encode_signature_into. -/
def encodeSignature (s : CSig) : List Byte :=
  [kFunction, BitVec.ofNat 8 s.args.length] ++ (if s.variadic then [kLegacyVariadic] else []) ++
    encodeQual s.ret ++ (s.args.map encodeQual).flatten

/-- compiler/rtti-builder.cpp:380-385: the bytes of a typeset. -/
def encodeTypesetBytes (sigs : List CSig) : List Byte :=
  compactEncode sigs.length ++ (sigs.map encodeSignature).flatten

/-- compiler/rtti-builder.cpp:304-318 to_typeid; `pool` is the type pool's `add` (its result is the byte
offset).  The assertion of MakeTypeId on the offset is a hypothesis where needed. -/
def toTypeId (pool : List Byte → Nat) (q : CQual) : Nat :=
  let bytes := encodeQual q
  let payload := (bytes.zipIdx.map fun (b, i) => b.toNat <<< (i * 8)).foldl (· ||| ·) 0
  if bytes.length ≤ 4 ∧ payload ≤ 0xfffffff then (payload <<< 4) ||| 0
  else (pool bytes <<< 4) ||| 1

end Verif.Rtti
