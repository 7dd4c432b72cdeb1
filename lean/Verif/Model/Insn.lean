import Verif.Model.Mem

/-!
The instruction set: opcode numbers and sizes (include/smx/smx-v1-opcodes.h) and the instruction
reader (vm/pcode-reader.h).
-/
namespace Verif.VM

/-- vm/pcode-visitor.h `PawnReg`. -/
inductive Reg where | pri | alt
deriving DecidableEq, Repr

/-- vm/pcode-visitor.h `CompareOp`. -/
inductive Cmp where | zero | notZero | eq | neq | sless | sleq | sgrtr | sgeq
deriving DecidableEq, Repr

/-- Two-operand int64 instructions, include/smx/smx-v1-opcodes.h. -/
inductive Op64 where | smul | sdivAlt | smodAlt | add | subAlt | shl | sshr | shr | or | and | xor
deriving DecidableEq, Repr

/-- Two-operand float instructions, include/smx/smx-v1-opcodes.h:208-220. -/
inductive OpF where | mul | divAlt | add | subAlt | modAlt
deriving DecidableEq, Repr

/-- Decoded instructions: one constructor per `visit*` method of vm/pcode-visitor.h.
Addresses, offsets and amounts are the signed value of the operand cell. -/
inductive Insn where
  | nop | brk | proc | endproc
  | load (r : Reg) (a : Int) | loadS (r : Reg) (o : Int) | lrefS (r : Reg) (o : Int) | loadI
  | lodbI (w : Int) | const (r : Reg) (v : Cell) | addr (r : Reg) (o : Int)
  | stor (a : Int) (r : Reg) | storS (o : Int) (r : Reg) | storSC (o : Int) (v : Cell)
  | srefS (o : Int) (r : Reg) | storI | strbI (w : Int) | lidx | idxaddr
  | move (r : Reg) | xchg | push (r : Reg)
  | pushC (vs : List Cell) | pushA (vs : List Cell) | pushS (vs : List Cell) | pushAdr (vs : List Cell)
  | pushII64 | pop (r : Reg) | stack (n : Int) | heap (n : Int) | retn | call (o : Int)
  | jump (o : Int) | jcmp (c : Cmp) (o : Int)
  | shl | shr | sshr | shlC (r : Reg) (v : Int) | smul | sdiv (r : Reg) | sdivAltI32 | smodAltI32
  | add | sub | subAlt | and | or | xor | not | neg | invert | addC (v : Cell) | smulC (v : Cell)
  | zero (r : Reg) | zeroA (a : Int) | zeroS (o : Int) | zeroSI64 (o : Int)
  | cmp (c : Cmp) | cmp64 (c : Cmp) | cmpF32 (c : Cmp) | eqC (r : Reg) (v : Cell)
  | inc (r : Reg) | incA (a : Int) | incS (o : Int) | incI
  | dec (r : Reg) | decA (a : Int) | decS (o : Int) | decI
  | movs (n : Int) | moveI64 | fill (n : Int) | halt (v : Cell) | bounds (n : Int)
  | sysreqC (i : Int) | sysreqN (i n : Int)
  | switch (tbl : Int) | casetbl (n : Int)
  | swap (r : Reg) | loadBoth (a b : Int) | loadSBoth (a b : Int) | constA (a : Int) (v : Cell)
  | constS (o : Int) (v : Cell)
  | trackPushC (n : Int) | trackPop | genarray (n : Int) (z : Bool) | stradjust
  | initarray (r : Reg) (a iv cp fl : Int) (v : Cell) | heapSave | heapRestore
  | cvtI64 (s : Int) | truncI64 | testI64 | invertI64 (s : Int) | negI64 (s : Int)
  | bin64 (op : Op64) (s : Int) | storSCI64 (s : Int) (c0 c1 : Cell) | storSPriI64 (s : Int)
  | testF32 | negF32 | binF32 (op : OpF) | cvtF32
deriving DecidableEq, Repr

/-- Opcode numbers and declared sizes in cells: include/smx/smx-v1-opcodes.h:36-260, the OPCODE_LIST
table (number, cells).  CASETBL is declared with size -1. -/
def opcodeTable : List (Nat × Int) :=
  [(0,1),(1,2),(2,2),(3,2),(4,2),(7,2),(8,2),(9,1),(10,2),(11,2),(12,2),(13,2),(14,2),(15,2),(16,2),
   (17,2),(18,2),(19,3),(21,2),(22,2),(23,1),(24,2),(25,1),(27,1),(33,1),(34,1),(35,1),(36,1),(37,1),
   (39,2),(40,2),(41,2),(42,1),(43,1),(44,2),(45,2),(46,1),(48,1),(49,2),(51,2),(53,2),(54,2),(55,2),
   (56,2),(61,2),(62,2),(63,2),(64,2),(65,1),(66,1),(67,1),(68,2),(69,2),(72,1),(73,1),(74,1),(75,1),
   (76,1),(78,1),(79,1),(80,1),(81,1),(82,1),(83,1),(84,1),(85,1),(86,1),(87,2),(88,2),(89,1),(90,1),
   (91,2),(92,2),(93,2),(95,1),(96,1),(101,1),(102,1),(103,1),(104,1),(105,2),(106,2),(107,1),(108,1),
   (109,2),(110,2),(111,1),(112,1),(113,1),(114,2),(115,2),(116,1),(117,2),(119,2),(120,2),(121,2),
   (123,2),(129,2),(130,-1),(131,1),(132,1),(133,2),(134,1),(135,3),(137,1),(138,3),(139,3),(140,3),
   (141,3),(142,4),(143,4),(144,4),(145,4),(146,5),(147,5),(148,5),(149,5),(150,6),(151,6),(152,6),
   (153,6),(154,3),(155,3),(156,3),(157,3),(160,2),(161,1),(162,2),(163,2),(164,1),(166,1),(169,6),
   (170,6),(171,1),(172,1),(173,1),(174,1),(175,1),(176,1),(177,1),(178,1),(179,1),(180,1),(181,1),
   (182,1),(183,1),(184,1),(185,1),(186,1),(192,1),(193,1),(194,2),(195,1),(196,1),(197,2),(198,2),
   (199,2),(200,2),(201,2),(202,2),(203,2),(204,2),(205,2),(206,1),(207,1),(208,2),(209,2),(210,2),
   (211,4),(212,1),(213,1),(214,1),(215,1),(216,2),(217,2)]

/-- Declared size of an opcode, if it exists. -/
def opcodeSize (op : Nat) : Option Int := (opcodeTable.find? (·.1 = op)).map (·.2)

/-- The `n` operand cells after position `pc`. -/
def operands (code : List Cell) (pc n : Nat) : Option (List Cell) :=
  if pc + 1 + n ≤ code.length then some ((code.drop (pc + 1)).take n) else none

/-- How an opcode is read: the number of operand cells and the instruction built from them. -/
abbrev Reader := Option (Nat × (List Cell → Option Insn))

/-- No operands. -/
def z (i : Insn) : Reader := some (0, fun _ => some i)
/-- One operand. -/
def a1 (f : Cell → Insn) : Reader := some (1, fun | [x] => some (f x) | _ => none)
/-- Two operands. -/
def a2 (f : Cell → Cell → Insn) : Reader := some (2, fun | [x, y] => some (f x y) | _ => none)
/-- Three operands. -/
def a3 (f : Cell → Cell → Cell → Insn) : Reader := some (3, fun | [x, y, w] => some (f x y w) | _ => none)
/-- Five operands. -/
def a5 (f : Cell → Cell → Cell → Cell → Cell → Insn) : Reader :=
  some (5, fun | [x, y, w, u, v] => some (f x y w u v) | _ => none)
/-- `n` operands kept as a list. -/
def an (n : Nat) (f : List Cell → Insn) : Reader := some (n, fun vs => some (f vs))

/-- vm/pcode-reader.h:111-735 visitOp, one line per case (CASETBL, which has no fixed size, is in
`decode`): what is read for an opcode. `none` for an unknown opcode. -/
def reader (op : Nat) : Reader :=
  match op with
  | 1 => a1 fun a => .load .pri a.toInt
  | 2 => a1 fun a => .load .alt a.toInt
  | 3 => a1 fun a => .loadS .pri a.toInt
  | 4 => a1 fun a => .loadS .alt a.toInt
  | 7 => a1 fun a => .lrefS .pri a.toInt
  | 8 => a1 fun a => .lrefS .alt a.toInt
  | 9 => z .loadI
  | 10 => a1 fun a => .lodbI a.toInt
  | 11 => a1 fun a => .const .pri a
  | 12 => a1 fun a => .const .alt a
  | 13 => a1 fun a => .addr .pri a.toInt
  | 14 => a1 fun a => .addr .alt a.toInt
  | 15 => a1 fun a => .stor a.toInt .pri
  | 16 => a1 fun a => .stor a.toInt .alt
  | 17 => a1 fun a => .storS a.toInt .pri
  | 18 => a1 fun a => .storS a.toInt .alt
  | 19 => a2 fun a b => .storSC a.toInt b
  | 21 => a1 fun a => .srefS a.toInt .pri
  | 22 => a1 fun a => .srefS a.toInt .alt
  | 23 => z .storI
  | 24 => a1 fun a => .strbI a.toInt
  | 25 => z .lidx
  | 27 => z .idxaddr
  | 33 => z (.move .pri)
  | 34 => z (.move .alt)
  | 35 => z .xchg
  | 36 => z (.push .pri)
  | 37 => z (.push .alt)
  | 39 => an 1 .pushC
  | 40 => an 1 .pushA
  | 41 => an 1 .pushS
  | 42 => z (.pop .pri)
  | 43 => z (.pop .alt)
  | 44 => a1 fun a => .stack a.toInt
  | 45 => a1 fun a => .heap a.toInt
  | 46 => z .proc
  | 48 => z .retn
  | 49 => a1 fun a => .call a.toInt
  | 51 => a1 fun a => .jump a.toInt
  | 53 => a1 fun a => .jcmp .zero a.toInt
  | 54 => a1 fun a => .jcmp .notZero a.toInt
  | 55 => a1 fun a => .jcmp .eq a.toInt
  | 56 => a1 fun a => .jcmp .neq a.toInt
  | 61 => a1 fun a => .jcmp .sless a.toInt
  | 62 => a1 fun a => .jcmp .sleq a.toInt
  | 63 => a1 fun a => .jcmp .sgrtr a.toInt
  | 64 => a1 fun a => .jcmp .sgeq a.toInt
  | 65 => z .shl
  | 66 => z .shr
  | 67 => z .sshr
  | 68 => a1 fun a => .shlC .pri a.toInt
  | 69 => a1 fun a => .shlC .alt a.toInt
  | 72 => z .smul
  | 73 => z (.sdiv .pri)
  | 74 => z (.sdiv .alt)
  | 75 => z .sdivAltI32
  | 76 => z .smodAltI32
  | 78 => z .add
  | 79 => z .sub
  | 80 => z .subAlt
  | 81 => z .and
  | 82 => z .or
  | 83 => z .xor
  | 84 => z .not
  | 85 => z .neg
  | 86 => z .invert
  | 87 => a1 .addC
  | 88 => a1 .smulC
  | 89 => z (.zero .pri)
  | 90 => z (.zero .alt)
  | 91 => a1 fun a => .zeroA a.toInt
  | 92 => a1 fun a => .zeroS a.toInt
  | 93 => a1 fun a => .zeroSI64 a.toInt
  | 95 => z (.cmp .eq)
  | 96 => z (.cmp .neq)
  | 101 => z (.cmp .sless)
  | 102 => z (.cmp .sleq)
  | 103 => z (.cmp .sgrtr)
  | 104 => z (.cmp .sgeq)
  | 105 => a1 (.eqC .pri)
  | 106 => a1 (.eqC .alt)
  | 107 => z (.inc .pri)
  | 108 => z (.inc .alt)
  | 109 => a1 fun a => .incA a.toInt
  | 110 => a1 fun a => .incS a.toInt
  | 111 => z .incI
  | 112 => z (.dec .pri)
  | 113 => z (.dec .alt)
  | 114 => a1 fun a => .decA a.toInt
  | 115 => a1 fun a => .decS a.toInt
  | 116 => z .decI
  | 117 => a1 fun a => .movs a.toInt
  | 119 => a1 fun a => .fill a.toInt
  | 120 => a1 .halt
  | 121 => a1 fun a => .bounds a.toInt
  | 123 => a1 fun a => .sysreqC a.toInt
  | 129 => a1 fun a => .switch a.toInt
  | 131 => z (.swap .pri)
  | 132 => z (.swap .alt)
  | 133 => an 1 .pushAdr
  | 134 => z .nop
  | 135 => a2 fun a b => .sysreqN a.toInt b.toInt
  | 137 => z .brk
  | 138 => an 2 .pushC
  | 139 => an 2 .pushA
  | 140 => an 2 .pushS
  | 141 => an 2 .pushAdr
  | 142 => an 3 .pushC
  | 143 => an 3 .pushA
  | 144 => an 3 .pushS
  | 145 => an 3 .pushAdr
  | 146 => an 4 .pushC
  | 147 => an 4 .pushA
  | 148 => an 4 .pushS
  | 149 => an 4 .pushAdr
  | 150 => an 5 .pushC
  | 151 => an 5 .pushA
  | 152 => an 5 .pushS
  | 153 => an 5 .pushAdr
  | 154 => a2 fun a b => .loadBoth a.toInt b.toInt
  | 155 => a2 fun a b => .loadSBoth a.toInt b.toInt
  | 156 => a2 fun a b => .constA a.toInt b
  | 157 => a2 fun a b => .constS a.toInt b
  | 160 => a1 fun a => .trackPushC a.toInt
  | 161 => z .trackPop
  | 162 => a1 fun a => .genarray a.toInt false
  | 163 => a1 fun a => .genarray a.toInt true
  | 164 => z .stradjust
  | 166 => z .endproc
  | 169 => a5 fun a b c d e => .initarray .pri a.toInt b.toInt c.toInt d.toInt e
  | 170 => a5 fun a b c d e => .initarray .alt a.toInt b.toInt c.toInt d.toInt e
  | 171 => z .heapSave
  | 172 => z .heapRestore
  | 173 => z .testF32
  | 174 => z .negF32
  | 175 => z (.binF32 .mul)
  | 176 => z (.binF32 .divAlt)
  | 177 => z (.binF32 .add)
  | 178 => z (.binF32 .subAlt)
  | 179 => z (.cmpF32 .eq)
  | 180 => z (.cmpF32 .neq)
  | 181 => z (.cmpF32 .sless)
  | 182 => z (.cmpF32 .sleq)
  | 183 => z (.cmpF32 .sgrtr)
  | 184 => z (.cmpF32 .sgeq)
  | 185 => z .cvtF32
  | 186 => z (.binF32 .modAlt)
  | 192 => z .moveI64
  | 193 => z .pushII64
  | 194 => a1 fun a => .cvtI64 a.toInt
  | 195 => z .truncI64
  | 196 => z .testI64
  | 197 => a1 fun a => .invertI64 a.toInt
  | 198 => a1 fun a => .negI64 a.toInt
  | 199 => a1 fun a => .bin64 .smul a.toInt
  | 200 => a1 fun a => .bin64 .sdivAlt a.toInt
  | 201 => a1 fun a => .bin64 .add a.toInt
  | 202 => a1 fun a => .bin64 .subAlt a.toInt
  | 203 => a1 fun a => .bin64 .shl a.toInt
  | 204 => a1 fun a => .bin64 .sshr a.toInt
  | 205 => a1 fun a => .bin64 .shr a.toInt
  | 206 => z (.cmp64 .eq)
  | 207 => z (.cmp64 .neq)
  | 208 => a1 fun a => .bin64 .or a.toInt
  | 209 => a1 fun a => .bin64 .and a.toInt
  | 210 => a1 fun a => .bin64 .xor a.toInt
  | 211 => a3 fun a b c => .storSCI64 a.toInt b c
  | 212 => z (.cmp64 .sless)
  | 213 => z (.cmp64 .sleq)
  | 214 => z (.cmp64 .sgrtr)
  | 215 => z (.cmp64 .sgeq)
  | 216 => a1 fun a => .bin64 .smodAlt a.toInt
  | 217 => a1 fun a => .storSPriI64 a.toInt
  | _ => none

/-- The instruction reader: decode the instruction at cell index `pc`; returns the instruction and
the index of the next one. `none` when the opcode is unknown or the operands run past the end of
the code. vm/pcode-reader.h:68-72 (visitNext) and 111-735 (visitOp). -/
def decode (code : List Cell) (pc : Nat) : Option (Insn × Nat) :=
  match code[pc]? with
  | none => none
  | some opc =>
    if opc = 130 then
      -- vm/pcode-reader.h:722-729: `getCells((ncases * 2) + 1)`; a negative count moves backwards,
      -- which the reader asserts against: modelled as a decoding failure.
      match operands code pc 1 with
      | some [n] =>
        if 0 ≤ n.toInt ∧ pc + 3 + 2 * n.toInt.toNat ≤ code.length then
          some (.casetbl n.toInt, pc + 3 + 2 * n.toInt.toNat)
        else none
      | _ => none
    else match reader opc.toNat with
      | none => none
      | some (n, f) =>
        match operands code pc n with
        | none => none
        | some vs =>
          match f vs with
          | none => none
          | some i => some (i, pc + 1 + n)

/-- Encoding used by the assembler (compiler/smx-assembly-buffer.h `emit`): opcode followed by its
operand cells, in the order in which the reader consumes them. -/
def encode : Insn → Option (List Cell)
  | .nop => some [134] | .brk => some [137] | .proc => some [46] | .endproc => some [166]
  | .load .pri a => some [1, .ofInt 32 a] | .load .alt a => some [2, .ofInt 32 a]
  | .loadS .pri a => some [3, .ofInt 32 a] | .loadS .alt a => some [4, .ofInt 32 a]
  | .lrefS .pri a => some [7, .ofInt 32 a] | .lrefS .alt a => some [8, .ofInt 32 a]
  | .loadI => some [9] | .lodbI w => some [10, .ofInt 32 w]
  | .const .pri v => some [11, v] | .const .alt v => some [12, v]
  | .addr .pri o => some [13, .ofInt 32 o] | .addr .alt o => some [14, .ofInt 32 o]
  | .stor a .pri => some [15, .ofInt 32 a] | .stor a .alt => some [16, .ofInt 32 a]
  | .storS o .pri => some [17, .ofInt 32 o] | .storS o .alt => some [18, .ofInt 32 o]
  | .storSC o v => some [19, .ofInt 32 o, v]
  | .srefS o .pri => some [21, .ofInt 32 o] | .srefS o .alt => some [22, .ofInt 32 o]
  | .storI => some [23] | .strbI w => some [24, .ofInt 32 w] | .lidx => some [25]
  | .idxaddr => some [27] | .move .pri => some [33] | .move .alt => some [34] | .xchg => some [35]
  | .push .pri => some [36] | .push .alt => some [37]
  | .pushC vs => match vs.length with
    | 1 => some (39 :: vs) | 2 => some (138 :: vs) | 3 => some (142 :: vs) | 4 => some (146 :: vs)
    | 5 => some (150 :: vs) | _ => none
  | .pushA vs => match vs.length with
    | 1 => some (40 :: vs) | 2 => some (139 :: vs) | 3 => some (143 :: vs) | 4 => some (147 :: vs)
    | 5 => some (151 :: vs) | _ => none
  | .pushS vs => match vs.length with
    | 1 => some (41 :: vs) | 2 => some (140 :: vs) | 3 => some (144 :: vs) | 4 => some (148 :: vs)
    | 5 => some (152 :: vs) | _ => none
  | .pushAdr vs => match vs.length with
    | 1 => some (133 :: vs) | 2 => some (141 :: vs) | 3 => some (145 :: vs) | 4 => some (149 :: vs)
    | 5 => some (153 :: vs) | _ => none
  | .pushII64 => some [193] | .pop .pri => some [42] | .pop .alt => some [43]
  | .stack n => some [44, .ofInt 32 n] | .heap n => some [45, .ofInt 32 n] | .retn => some [48]
  | .call o => some [49, .ofInt 32 o] | .jump o => some [51, .ofInt 32 o]
  | .jcmp .zero o => some [53, .ofInt 32 o] | .jcmp .notZero o => some [54, .ofInt 32 o]
  | .jcmp .eq o => some [55, .ofInt 32 o] | .jcmp .neq o => some [56, .ofInt 32 o]
  | .jcmp .sless o => some [61, .ofInt 32 o] | .jcmp .sleq o => some [62, .ofInt 32 o]
  | .jcmp .sgrtr o => some [63, .ofInt 32 o] | .jcmp .sgeq o => some [64, .ofInt 32 o]
  | .shl => some [65] | .shr => some [66] | .sshr => some [67]
  | .shlC .pri v => some [68, .ofInt 32 v] | .shlC .alt v => some [69, .ofInt 32 v]
  | .smul => some [72] | .sdiv .pri => some [73] | .sdiv .alt => some [74]
  | .sdivAltI32 => some [75] | .smodAltI32 => some [76] | .add => some [78] | .sub => some [79]
  | .subAlt => some [80] | .and => some [81] | .or => some [82] | .xor => some [83]
  | .not => some [84] | .neg => some [85] | .invert => some [86] | .addC v => some [87, v]
  | .smulC v => some [88, v] | .zero .pri => some [89] | .zero .alt => some [90]
  | .zeroA a => some [91, .ofInt 32 a] | .zeroS o => some [92, .ofInt 32 o]
  | .zeroSI64 o => some [93, .ofInt 32 o]
  | .cmp .eq => some [95] | .cmp .neq => some [96] | .cmp .sless => some [101]
  | .cmp .sleq => some [102] | .cmp .sgrtr => some [103] | .cmp .sgeq => some [104]
  | .cmp .zero => none | .cmp .notZero => none
  | .eqC .pri v => some [105, v] | .eqC .alt v => some [106, v]
  | .inc .pri => some [107] | .inc .alt => some [108] | .incA a => some [109, .ofInt 32 a]
  | .incS o => some [110, .ofInt 32 o] | .incI => some [111]
  | .dec .pri => some [112] | .dec .alt => some [113] | .decA a => some [114, .ofInt 32 a]
  | .decS o => some [115, .ofInt 32 o] | .decI => some [116]
  | .movs n => some [117, .ofInt 32 n] | .moveI64 => some [192] | .fill n => some [119, .ofInt 32 n]
  | .halt v => some [120, v] | .bounds n => some [121, .ofInt 32 n]
  | .sysreqC i => some [123, .ofInt 32 i] | .sysreqN i n => some [135, .ofInt 32 i, .ofInt 32 n]
  | .switch t => some [129, .ofInt 32 t] | .casetbl _ => none
  | .swap .pri => some [131] | .swap .alt => some [132]
  | .loadBoth a b => some [154, .ofInt 32 a, .ofInt 32 b]
  | .loadSBoth a b => some [155, .ofInt 32 a, .ofInt 32 b]
  | .constA a v => some [156, .ofInt 32 a, v] | .constS o v => some [157, .ofInt 32 o, v]
  | .trackPushC n => some [160, .ofInt 32 n] | .trackPop => some [161]
  | .genarray n false => some [162, .ofInt 32 n] | .genarray n true => some [163, .ofInt 32 n]
  | .stradjust => some [164]
  | .initarray .pri a b c d e => some [169, .ofInt 32 a, .ofInt 32 b, .ofInt 32 c, .ofInt 32 d, e]
  | .initarray .alt a b c d e => some [170, .ofInt 32 a, .ofInt 32 b, .ofInt 32 c, .ofInt 32 d, e]
  | .heapSave => some [171] | .heapRestore => some [172]
  | .testF32 => some [173] | .negF32 => some [174]
  | .binF32 .mul => some [175] | .binF32 .divAlt => some [176] | .binF32 .add => some [177]
  | .binF32 .subAlt => some [178] | .binF32 .modAlt => some [186]
  | .cmpF32 .eq => some [179] | .cmpF32 .neq => some [180] | .cmpF32 .sless => some [181]
  | .cmpF32 .sleq => some [182] | .cmpF32 .sgrtr => some [183] | .cmpF32 .sgeq => some [184]
  | .cmpF32 .zero => none | .cmpF32 .notZero => none | .cvtF32 => some [185]
  | .cvtI64 s => some [194, .ofInt 32 s] | .truncI64 => some [195] | .testI64 => some [196]
  | .invertI64 s => some [197, .ofInt 32 s] | .negI64 s => some [198, .ofInt 32 s]
  | .bin64 .smul s => some [199, .ofInt 32 s] | .bin64 .sdivAlt s => some [200, .ofInt 32 s]
  | .bin64 .add s => some [201, .ofInt 32 s] | .bin64 .subAlt s => some [202, .ofInt 32 s]
  | .bin64 .shl s => some [203, .ofInt 32 s] | .bin64 .sshr s => some [204, .ofInt 32 s]
  | .bin64 .shr s => some [205, .ofInt 32 s] | .bin64 .or s => some [208, .ofInt 32 s]
  | .bin64 .and s => some [209, .ofInt 32 s] | .bin64 .xor s => some [210, .ofInt 32 s]
  | .bin64 .smodAlt s => some [216, .ofInt 32 s]
  | .cmp64 .eq => some [206] | .cmp64 .neq => some [207] | .cmp64 .sless => some [212]
  | .cmp64 .sleq => some [213] | .cmp64 .sgrtr => some [214] | .cmp64 .sgeq => some [215]
  | .cmp64 .zero => none | .cmp64 .notZero => none
  | .storSCI64 s c0 c1 => some [211, .ofInt 32 s, c0, c1] | .storSPriI64 s => some [217, .ofInt 32 s]

end Verif.VM
