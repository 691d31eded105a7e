/-!
# Enabling a timer's clock: `rtic-monotonics/src/stm32/meta.rs`

The compile-time lookups into the metadata of the chip, and the accesses to the RCC registers at run time (`stm32.rs:322-324`, `stm32.rs:465-467`).

Simplifications: the metadata (`stm32_metapac::metadata`, not in this repository) is a value of the type `Metadata` below, with the fields the code reads. A panic of a `const fn` (a compile-time error) is `Except.error`, and so are the
compile-time errors of an overflowing addition or shift. A register is a word of memory that holds what was written last.
-/

namespace Verif.Rcc

/-- a string: its bytes -/
abbrev Name := List UInt8

/-- `ir::Field`; `none`: `BitOffset::Cursed`, `meta.rs:142-145` -/
structure Field where
  name : Name
  offset : Option Nat

/-- `ir::FieldSet`, `meta.rs:127-138` -/
structure FieldSet where
  name : Name
  fields : List Field

/-- `ir::BlockItemInner`, `meta.rs:95-101` -/
inductive Inner where
  | register (fieldset : Option Name)
  | block

/-- `ir::BlockItem`, `meta.rs:86-104` -/
structure Item where
  name : Name
  isArray : Bool
  byteOffset : Nat
  inner : Inner

/-- `ir::Block`, `meta.rs:78` -/
structure Block where
  name : Name
  items : List Item

/-- `PeripheralRegisters`, `meta.rs:70-79` -/
structure Registers where
  block : Name
  blocks : List Block
  fieldsets : List FieldSet

/-- `PeripheralRccRegister`, `meta.rs:69,87,104` -/
structure RccReg where
  register : Name
  field : Name

/-- `PeripheralRcc`, `meta.rs:28-41` -/
structure RccInfo where
  enable : Option RccReg
  reset : Option RccReg

/-- `Peripheral` -/
structure Peripheral where
  name : Name
  address : Nat
  rcc : Option RccInfo
  registers : Option Registers

/-- `METADATA` -/
structure Metadata where
  peripherals : List Peripheral

inductive Panic where
  | noPeripheral | timerNoRcc | timerNoEnable | rccNoRegisters | noBlock | noRegister | isArray | noFieldset | isBlock | fieldsetNotFound | fieldNotFound | cursed
  /-- overflow in constant evaluation -/
  | overflow
deriving DecidableEq, Repr

/-- `u8::to_ascii_lowercase` -/
def lower (b : UInt8) : UInt8 := if 65 ≤ b ∧ b ≤ 90 then b + 32 else b

/-- the loop of `streq`, `meta.rs:172-179`: `n` positions are left -/
def streqLoop (a b : Name) (i : Nat) : Nat → Bool
  | 0 => true
  | n + 1 => if lower (a.getD i 0) = lower (b.getD i 0) then streqLoop a b (i + 1) n else false

/-- `streq`, `meta.rs:167-180` -/
def streq (a b : Name) : Bool := if a.length ≠ b.length then false else streqLoop a b 0 a.length

/-- `find_peripheral`, `meta.rs:154-163` -/
def findPeripheral : List Peripheral → Name → Except Panic Peripheral
  | [], _ => .error .noPeripheral
  | p :: ps, name => if streq p.name name then .ok p else findPeripheral ps name

/-- the inner loop of `field_bit`, `meta.rs:140-149` -/
def fieldIn : List Field → Name → Except Panic Nat
  | [], _ => .error .fieldNotFound
  | f :: fs, field =>
    if streq f.name field then
      match f.offset with
      | some o => .ok o
      | none => .error .cursed
    else fieldIn fs field

/-- `field_bit`, `meta.rs:127-151` -/
def fieldBit : List FieldSet → Name → Name → Except Panic Nat
  | [], _, _ => .error .fieldsetNotFound
  | s :: ss, fieldset, field => if streq s.name fieldset then fieldIn s.fields field else fieldBit ss fieldset field

/-- `RccBit`, `meta.rs:60-64` -/
structure RccBit where
  addr : Nat
  mask : BitVec 32
deriving DecidableEq

/-- the loop over the items of the block, `meta.rs:84-107` -/
def itemIn (address : Nat) (fieldsets : List FieldSet) (bit : RccReg) : List Item → Except Panic RccBit
  | [] => .error .noRegister
  | item :: items =>
    if streq item.name bit.register then
      if item.isArray then .error .isArray
      else match item.inner with
        | .block => .error .isBlock
        | .register none => .error .noFieldset
        | .register (some fieldset) =>
          match fieldBit fieldsets fieldset bit.field with
          | .error e => .error e
          | .ok o =>
            -- `rcc.address as u32 + item.byte_offset` and `1 << ..` in constant evaluation
            if address % 2 ^ 32 + item.byteOffset < 2 ^ 32 ∧ o < 32 then .ok { addr := address % 2 ^ 32 + item.byteOffset, mask := 1#32 <<< o } else .error .overflow
    else itemIn address fieldsets bit items

/-- the loop over the blocks, `meta.rs:76-109` -/
def blockIn (address : Nat) (regs : Registers) (bit : RccReg) : List Block → Except Panic RccBit
  | [] => .error .noBlock
  | b :: bs => if streq b.name regs.block then itemIn address regs.fieldsets bit b.items else blockIn address regs bit bs

/-- `"RCC"` -/
def rccName : Name := [82, 67, 67]

/-- `RccBit::lookup`, `meta.rs:69-111` -/
def RccBit.lookup (md : Metadata) (bit : RccReg) : Except Panic RccBit :=
  match findPeripheral md.peripherals rccName with
  | .error e => .error e
  | .ok rcc =>
    match rcc.registers with
    | none => .error .rccNoRegisters
    | some regs => blockIn rcc.address regs bit regs.blocks

/-- `TimerRcc`, `meta.rs:21-24` -/
structure TimerRcc where
  enable : RccBit
  reset : Option RccBit
deriving DecidableEq

/-- `TimerRcc::lookup`, `meta.rs:27-42` -/
def TimerRcc.lookup (md : Metadata) (timer : Name) : Except Panic TimerRcc :=
  match findPeripheral md.peripherals timer with
  | .error e => .error e
  | .ok p =>
    match p.rcc with
    | none => .error .timerNoRcc
    | some rcc =>
      match rcc.enable with
      | none => .error .timerNoEnable
      | some en =>
        match RccBit.lookup md en with
        | .error e => .error e
        | .ok e =>
          match rcc.reset with
          | none => .ok { enable := e, reset := none }
          | some r =>
            match RccBit.lookup md r with
            | .error e => .error e
            | .ok r => .ok { enable := e, reset := some r }

/-! ## Run time -/

/-- an access of `RccBit::set`, `meta.rs:114-124`: `read_volatile`, then `write_volatile` of the value read with the bit set or cleared -/
inductive Acc where
  | read (addr : Nat)
  | write (addr : Nat) (mask : BitVec 32) (on : Bool)
deriving DecidableEq

/-- `RccBit::set` -/
def RccBit.set (b : RccBit) (on : Bool) : List Acc := [.read b.addr, .write b.addr b.mask on]

/-- `enable`, then `reset`, `stm32.rs:323-324`, `meta.rs:44-56` (the barrier after the write has no effect in this model) -/
def TimerRcc.start (t : TimerRcc) : List Acc :=
  t.enable.set true ++ match t.reset with
    | some r => r.set true ++ r.set false
    | none => []

/-- memory, the value read last, and the accesses left -/
structure St where
  mem : Nat → BitVec 32
  val : BitVec 32
  left : List Acc

def upd (f : Nat → BitVec 32) (a : Nat) (v : BitVec 32) : Nat → BitVec 32 := fun b => if b = a then v else f b

/-- what is written to memory -/
inductive Ev where
  /-- by the code modelled here -/
  | own (addr : Nat) (v : BitVec 32)
  /-- by other code: an interrupt, the hardware -/
  | other (addr : Nat) (v : BitVec 32)
deriving DecidableEq

inductive Step : St → List Ev → St → Prop
  | read (s addr rest) (h : s.left = .read addr :: rest) : Step s [] { s with val := s.mem addr, left := rest }
  | write (s addr mask on rest) (h : s.left = .write addr mask on :: rest) :
      Step s [.own addr (if on then s.val ||| mask else s.val &&& ~~~mask)] { s with mem := upd s.mem addr (if on then s.val ||| mask else s.val &&& ~~~mask), left := rest }
  | other (s addr v) : Step s [.other addr v] { s with mem := upd s.mem addr v }

inductive Exec : St → List Ev → St → Prop
  | nil (s) : Exec s [] s
  | cons {s s1 s2 e tr} (h : Step s e s1) (hs : Exec s1 tr s2) : Exec s (e ++ tr) s2

end Verif.Rcc
