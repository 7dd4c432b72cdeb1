/-! Numbers, Unicode and strings of cells. -/
namespace Verif.Text

abbrev Byte := BitVec 8

/-- The number a sequence of digits denotes: each digit counts as many times as the base to the power of the digits after it. -/
def positional (base : Nat) : List Nat → Nat
  | [] => 0
  | d :: ds => d * base ^ ds.length + positional base ds

/-- The digits: 0 to 9, and a to f in either case. -/
def digitValue (b : Byte) : Option Nat :=
  (List.range 16).find? fun d =>
    decide (b.toNat = ("0123456789abcdef".toList.getD d ' ').toNat ∨ b.toNat = ("0123456789ABCDEF".toList.getD d ' ').toNat)

/-- A string of digits of a base, with underscores, that has at least one digit. -/
structure Body (base : Nat) (body : List Byte) : Prop where
  chars : ∀ b ∈ body, b = 95 ∨ ∃ d, digitValue b = some d ∧ d < base
  digit : ∃ b ∈ body, b ≠ 95

/-- The number such a string denotes. -/
def Body.value (base : Nat) (body : List Byte) : Nat := positional base (body.filterMap digitValue)

/-- Unicode scalar values: the code points except surrogates (The Unicode Standard, D76). -/
def Scalar (c : Nat) : Prop := c < 0xD800 ∨ (0xE000 ≤ c ∧ c ≤ 0x10FFFF)

instance (c : Nat) : Decidable (Scalar c) := by unfold Scalar; infer_instance

/-- The UTF-8 encoding of a scalar value (The Unicode Standard, Table 3-6). -/
def utf8 (c : Nat) : List Byte :=
  if c < 0x80 then [.ofNat 8 c]
  else if c < 0x800 then [.ofNat 8 (0xC0 + c / 64), .ofNat 8 (0x80 + c % 64)]
  else if c < 0x10000 then [.ofNat 8 (0xE0 + c / 4096), .ofNat 8 (0x80 + c / 64 % 64), .ofNat 8 (0x80 + c % 64)]
  else [.ofNat 8 (0xF0 + c / 262144), .ofNat 8 (0x80 + c / 4096 % 64), .ofNat 8 (0x80 + c / 64 % 64), .ofNat 8 (0x80 + c % 64)]

/-- The bytes of a cell, lowest first. -/
def cellBytes (v : BitVec 32) : List Byte :=
  [.ofNat 8 v.toNat, .ofNat 8 (v.toNat / 256), .ofNat 8 (v.toNat / 65536), .ofNat 8 (v.toNat / 16777216)]

end Verif.Text
