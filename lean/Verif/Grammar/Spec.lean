import Verif.Grammar.Model
import Verif.Signature.Spec

/-!
# Specification: the grammar of the arguments and what they mean

A grammar for the arguments of the attributes, in the usual notation

```text
task_args   ::= ( arg ( ',' arg )* ','? )?
arg         ::= 'binds' '=' IDENT | 'priority' '=' INT | 'shared' '=' '[' shared_list ']' | 'local' '=' '[' local_list ']' | 'local_task' ( '=' BOOL )?
shared_list ::= ( res ( ',' res )* ','? )?          res ::= IDENT | '&' IDENT
local_list  ::= ( IDENT | IDENT ':' TYPE '=' EXPR ) ...
app_args    ::= ( 'device' '=' PATH | 'core' '=' BOOL | 'peripherals' '=' BOOL | 'dispatchers' '=' '[' IDENT, .. ']' | 'backend' '=' IDENT ) separated by ','
```

written as relations between tokens and what is read, and, separately, the meaning of a list of arguments, which does not depend on their order.
-/

namespace Verif.Grammar
open Verif.Analysis (Ident Access Map)
open Verif.Signature (Attr Path IsAttr)

/-- what is written in the parentheses of `#[init]`, `#[idle]`, `#[task]` -/
inductive GArg where
  | binds (i : Ident)
  | priority (n : Nat)
  | shared (l : List (Ident × Access))
  | locals (l : List (Ident × GLocal))
  | localTask (b : Bool)

/-- `item ts x r`: the tokens `ts` begin with `x`, `r` follows. Items separated by commas; a comma at the end is allowed. -/
inductive CommaList {α : Type} (item : List Tok → α → List Tok → Prop) : List Tok → List α → Prop where
  | nil : CommaList item [] []
  | last {ts x} : item ts x [] → CommaList item ts [x]
  | cons {ts x r xs} : item ts x (.comma :: r) → CommaList item r xs → CommaList item ts (x :: xs)

/-- Items separated by commas; there is at least one, and no comma at the end. -/
inductive StrictList {α : Type} (item : List Tok → α → List Tok → Prop) : List Tok → List α → Prop where
  | last {ts x} : item ts x [] → StrictList item ts [x]
  | cons {ts x r xs} : item ts x (.comma :: r) → StrictList item r xs → StrictList item ts (x :: xs)

/-- the path that is just the identifier `i` -/
abbrev Path.just (i : Ident) : Path := { leadingColon := false, segs := [{ ident := i, args := .none }] }

/-- `r` or `&r` in a list of shared resources (attributes in front of it are allowed) -/
inductive SharedItem (syn : Syn) : List Tok → Ident × Access → List Tok → Prop where
  | exclusive {ts attrs i r} : syn.expr ts = some (.path attrs (Path.just i), r) → SharedItem syn ts (i, .exclusive) r
  | shared {ts attrs i r} : syn.expr ts = some (.reference false (.path attrs (Path.just i)), r) → SharedItem syn ts (i, .shared) r

/-- `cfgs` are the `#[cfg(..)]` among the attributes, `rest` are those that are neither `#[cfg(..)]` nor doc comments, both in the order of the source -/
inductive Split : List Attr → List Attr → List Attr → Prop where
  | nil : Split [] [] []
  | cfg {a l cfgs rest} : IsAttr Verif.Signature.Kw.cfg a → Split l cfgs rest → Split (a :: l) (a :: cfgs) rest
  | doc {a l cfgs rest} : IsAttr Verif.Signature.Kw.doc a → Split l cfgs rest → Split (a :: l) cfgs rest
  | other {a l cfgs rest} : ¬ IsAttr Verif.Signature.Kw.cfg a → ¬ IsAttr Verif.Signature.Kw.doc a → Split l cfgs rest → Split (a :: l) cfgs (a :: rest)

/-- One entry of a list of local resources, with the comma after it. A declaration needs no comma after it. The last name may have attributes, which are ignored. -/
inductive LocalItem (syn : Syn) : List Tok → Ident × GLocal → List Tok → Prop where
  | declared {ts as i r₁ ty r₂ e r₃ cfgs attrs} : syn.exprPath ts = some ((as, Path.just i), .colon :: r₁) → syn.ty r₁ = some (ty, .eq :: r₂) → ty.form ≠ .other →
      syn.expr r₂ = some (e, r₃) → (∀ r, r₃ ≠ .comma :: r) → Split as cfgs attrs → LocalItem syn ts (i, .declared attrs cfgs ty.id e) r₃
  | declaredComma {ts as i r₁ ty r₂ e r₃ cfgs attrs} : syn.exprPath ts = some ((as, Path.just i), .colon :: r₁) → syn.ty r₁ = some (ty, .eq :: r₂) → ty.form ≠ .other →
      syn.expr r₂ = some (e, .comma :: r₃) → Split as cfgs attrs → LocalItem syn ts (i, .declared attrs cfgs ty.id e) r₃
  | external {ts as i r cfgs} : syn.exprPath ts = some ((as, Path.just i), .comma :: r) → Split as cfgs [] → LocalItem syn ts (i, .external) r
  | last {ts as i} : syn.exprPath ts = some ((as, Path.just i), []) → LocalItem syn ts (i, .external) []

/-- the entries of a list of local resources -/
inductive LocalList (syn : Syn) : List Tok → List (Ident × GLocal) → Prop where
  | nil : LocalList syn [] []
  | cons {ts kv r l} : LocalItem syn ts kv r → LocalList syn r l → LocalList syn ts (kv :: l)

/-- one argument of `#[init]`, `#[idle]` or `#[task]` -/
inductive Arg (syn : Syn) : List Tok → GArg → List Tok → Prop where
  | binds {i r} : Arg syn (.ident Kw.binds :: .eq :: .ident i :: r) (.binds i) r
  | priority {n r} : Arg syn (.ident Kw.priority :: .eq :: .int n false :: r) (.priority n) r
  | shared {inner l r} : CommaList (SharedItem syn) inner l → Arg syn (.ident Kw.shared :: .eq :: .bracket inner :: r) (.shared l) r
  | locals {inner l r} : LocalList syn inner l → Arg syn (.ident Kw.locals :: .eq :: .bracket inner :: r) (.locals l) r
  | localTask {r} : (∀ r', r ≠ .eq :: r') → Arg syn (.ident Kw.localTask :: r) (.localTask true) r
  | localTaskValue {b r} : Arg syn (.ident Kw.localTask :: .eq :: .bool b :: r) (.localTask b) r

inductive GKind where
  | binds | priority | shared | locals | localTask
deriving DecidableEq

/-- the name of an argument -/
def GArg.kind : GArg → GKind
  | .binds _ => .binds
  | .priority _ => .priority
  | .shared _ => .shared
  | .locals _ => .locals
  | .localTask _ => .localTask

/-- The arguments are fine on their own: none is given twice, priorities are between 0 and 255, no resource is listed twice in a list, a list of local resources has an element. -/
structure Fine (as : List GArg) : Prop where
  once : (as.map GArg.kind).Nodup
  priority : ∀ n, .priority n ∈ as → n ≤ 255
  shared : ∀ l, .shared l ∈ as → (l.map Prod.fst).Nodup
  locals : ∀ l, .locals l ∈ as → l ≠ [] ∧ (l.map Prod.fst).Nodup

/-- the value of an argument: as given, or the default -/
def ValueOr {α : Type} (arg : α → GArg) (dflt : α) (as : List GArg) (v : α) : Prop := arg v ∈ as ∨ (∀ v', arg v' ∉ as) ∧ v = dflt

/-- The meaning of the arguments of `#[task]`: with `binds` a hardware task, of priority 1 if none is given, never 0; without, a software task, of priority 0 if none is given. -/
inductive TaskMeans (as : List GArg) : Sum HwArgs SwArgs → Prop where
  | hardware {h : HwArgs} : Fine as → .binds h.binds ∈ as → ValueOr .priority 1 as h.priority → h.priority ≠ 0 → ValueOr .shared [] as h.shared → ValueOr .locals [] as h.locals →
      TaskMeans as (.inl h)
  | software {s : SwArgs} : Fine as → (∀ i, .binds i ∉ as) → ValueOr .priority 0 as s.priority → ValueOr .shared [] as s.shared → ValueOr .locals [] as s.locals →
      ValueOr .localTask false as s.localTask → TaskMeans as (.inr s)

/-- The meaning of the arguments of `#[idle]`. -/
structure IdleMeans (as : List GArg) (m : Map Access × Map GLocal) : Prop where
  fine : Fine as
  only : ∀ a ∈ as, a.kind = .shared ∨ a.kind = .locals
  shared : ValueOr .shared [] as m.1
  locals : ValueOr .locals [] as m.2

/-- The meaning of the arguments of `#[init]`: resources are declared there. -/
structure InitMeans (as : List GArg) (m : Map GLocal) : Prop where
  fine : Fine as
  only : ∀ a ∈ as, a.kind = .locals
  locals : ValueOr .locals [] as m
  declared : ∀ i, (i, .external) ∉ m

/-! ## `#[app(..)]` -/

inductive AArg where
  | device (p : Path)
  | core (b : Bool)
  | peripherals (b : Bool)
  | dispatchers (l : List (Ident × List Attr))
  | backend (i : Ident)

/-- an interrupt in the list of dispatchers: an identifier, possibly with attributes. Generic arguments are ignored. -/
inductive DispatcherItem (syn : Syn) : List Tok → Ident × List Attr → List Tok → Prop where
  | mk {ts attrs i args r} : syn.expr ts = some (.path attrs { leadingColon := false, segs := [{ ident := i, args := args }] }, r) → DispatcherItem syn ts (i, attrs) r

/-- one argument of `#[app]`; `clint`: the backend takes an argument -/
inductive AppItem (syn : Syn) (clint : Bool) : List Tok → AArg → List Tok → Prop where
  | device {ts p r} : syn.path ts = some (p, r) → AppItem syn clint (.ident Kw.device :: .eq :: ts) (.device p) r
  | core {b r} : AppItem syn clint (.ident Kw.core :: .eq :: .bool b :: r) (.core b) r
  | peripherals {b r} : AppItem syn clint (.ident Kw.peripherals :: .eq :: .bool b :: r) (.peripherals b) r
  | dispatchers {inner l r} : CommaList (DispatcherItem syn) inner l → AppItem syn clint (.ident Kw.dispatchers :: .eq :: .bracket inner :: r) (.dispatchers l) r
  | backend {i r} : clint = true → AppItem syn clint (.ident Kw.backend :: .eq :: .ident i :: r) (.backend i) r

inductive AKind where
  | device | core | peripherals | dispatchers | backend
deriving DecidableEq

/-- the name of an argument -/
def AArg.kind : AArg → AKind
  | .device _ => .device
  | .core _ => .core
  | .peripherals _ => .peripherals
  | .dispatchers _ => .dispatchers
  | .backend _ => .backend

/-- The meaning of the arguments of `#[app]`: `device` is mandatory, the others have defaults; none is given twice, no dispatcher is listed twice. -/
structure AppMeans (as : List AArg) (a : AppArgs) : Prop where
  once : (as.map AArg.kind).Nodup
  device : .device a.device ∈ as
  core : .core a.core ∈ as ∨ (∀ b, .core b ∉ as) ∧ a.core = true
  peripherals : .peripherals a.peripherals ∈ as ∨ (∀ b, .peripherals b ∉ as) ∧ a.peripherals = true
  dispatchers : .dispatchers a.dispatchers ∈ as ∨ (∀ l, .dispatchers l ∉ as) ∧ a.dispatchers = []
  distinct : (a.dispatchers.map Prod.fst).Nodup
  backend : (∃ i, a.backend = some i ∧ .backend i ∈ as) ∨ (∀ i, .backend i ∉ as) ∧ a.backend = none

/-! ## source text

The relations above say what is read at the beginning of a stream of tokens. The following ones say how the documented forms are written, independently of what follows. -/

/-- the end of an entry -/
def Ends (r : List Tok) : Prop := r = [] ∨ ∃ r', r = .comma :: r'

/-- What is required of `syn`: an identifier before a comma, a colon or the end is read as this identifier. -/
structure Plain (syn : Syn) : Prop where
  expr : ∀ i r, Ends r → syn.expr (.ident i :: r) = some (.path [] (Path.just i), r)
  reference : ∀ i r, Ends r → syn.expr (.amp :: .ident i :: r) = some (.reference false (.path [] (Path.just i)), r)
  exprPath : ∀ i r, Ends r ∨ (∃ r', r = .colon :: r') → syn.exprPath (.ident i :: r) = some (([], Path.just i), r)
  path : ∀ i r, Ends r → syn.path (.ident i :: r) = some (Path.just i, r)

/-- the entries `w`, separated by commas, possibly with a comma at the end -/
inductive Joined {α : Type} (w : List Tok → α → Prop) : List Tok → List α → Prop where
  | nil : Joined w [] []
  | last {t x} : w t x → Joined w t [x]
  | cons {t x u xs} : w t x → Joined w u xs → Joined w (t ++ .comma :: u) (x :: xs)

/-- the entries `w`, at least one, separated by commas, without a comma at the end -/
inductive JoinedStrict {α : Type} (w : List Tok → α → Prop) : List Tok → List α → Prop where
  | last {t x} : w t x → JoinedStrict w t [x]
  | cons {t x u xs} : w t x → JoinedStrict w u xs → JoinedStrict w (t ++ .comma :: u) (x :: xs)

/-- `r` and `&r` -/
inductive WritesShared : List Tok → Ident × Access → Prop where
  | exclusive {i} : WritesShared [.ident i] (i, .exclusive)
  | shared {i} : WritesShared [.amp, .ident i] (i, .shared)

/-- `r` and `r: TYPE = EXPR` -/
inductive WritesLocal (syn : Syn) : List Tok → Ident × GLocal → Prop where
  | external {i} : WritesLocal syn [.ident i] (i, .external)
  | declared {i t ty e x} : (∀ r, syn.ty (t ++ .eq :: r) = some (ty, .eq :: r)) → ty.form ≠ .other → (∀ r, Ends r → syn.expr (e ++ r) = some (x, r)) →
      WritesLocal syn (.ident i :: .colon :: (t ++ .eq :: e)) (i, .declared [] [] ty.id x)

/-- the documented arguments of `#[init]`, `#[idle]`, `#[task]` -/
inductive WritesArg (syn : Syn) : List Tok → GArg → Prop where
  | binds {i} : WritesArg syn [.ident Kw.binds, .eq, .ident i] (.binds i)
  | priority {n} : WritesArg syn [.ident Kw.priority, .eq, .int n false] (.priority n)
  | shared {inner l} : Joined WritesShared inner l → WritesArg syn [.ident Kw.shared, .eq, .bracket inner] (.shared l)
  | locals {inner l} : Joined (WritesLocal syn) inner l → WritesArg syn [.ident Kw.locals, .eq, .bracket inner] (.locals l)
  | localTask : WritesArg syn [.ident Kw.localTask] (.localTask true)
  | localTaskValue {b} : WritesArg syn [.ident Kw.localTask, .eq, .bool b] (.localTask b)

/-- the documented arguments of `#[app]`; the device is a path, of which only is required that it is read as such -/
inductive WritesApp (syn : Syn) (clint : Bool) : List Tok → AArg → Prop where
  | device {t p} : (∀ r, Ends r → syn.path (t ++ r) = some (p, r)) → WritesApp syn clint (.ident Kw.device :: .eq :: t) (.device p)
  | core {b} : WritesApp syn clint [.ident Kw.core, .eq, .bool b] (.core b)
  | peripherals {b} : WritesApp syn clint [.ident Kw.peripherals, .eq, .bool b] (.peripherals b)
  | dispatchers {inner l} : Joined (fun t x => t = [.ident x.1] ∧ x.2 = []) inner l → WritesApp syn clint [.ident Kw.dispatchers, .eq, .bracket inner] (.dispatchers l)
  | backend {i} : clint = true → WritesApp syn clint [.ident Kw.backend, .eq, .ident i] (.backend i)

end Verif.Grammar
