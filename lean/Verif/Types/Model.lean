import Verif.Types.Spec
/-
The type comparison of src/semantic/infer.c.

`cmp` follows `type_compare_visited` (infer.c:471-722) test by test, with its table of visited
names threaded through.  `accept` follows `infer_right_expr` (infer.c:3744-3800), which is
what decides every assignment, argument, initialiser and returned value.

Simplifications.  Types are finite trees whose names have been looked up (`reduction_type`,
infer.c:4153-4282).  The identifiers of declared types, built-in types, interfaces and type
parameters are taken to be different from each other, as the symbol table and the package
prefixes make them.  Aliases are taken to be replaced by what they stand for.  The length tests
of tuples, parameters and fields are made by the loops as they run out, except that the
parameter count test, which comes before the flags, is kept.
-/
namespace Nature.Types

/-- The kinds that the comparison asks about.  utils/type.h:70-128. -/
inductive Kind where
  | prim (p : Prim) | allT | fnT | integerT | floaterT | ptr | ref | vec | set | chan | map | arr
  | tuple | fn | struct | tagged | union | iface | ident
deriving DecidableEq, Repr

/-- What a declared type stands for.  infer.c:4043-4047 (`t.kind = right_type_expr.kind; t.value =
right_type_expr.value`): the kind and the value of the body, the name of the declaration. -/
def core : Ty → Ty
  | .named _ _ b => b
  | t => t

/-- `type_t.kind` of a type that is not a declared name. -/
def kind0 : Ty → Kind
  | .prim p => .prim p
  | .allT => .allT
  | .fnT => .fnT
  | .integerT => .integerT
  | .floaterT => .floaterT
  | .ptr _ => .ptr
  | .ref _ => .ref
  | .vec _ => .vec
  | .set _ => .set
  | .chan _ => .chan
  | .map _ _ => .map
  | .arr _ _ => .arr
  | .tuple _ => .tuple
  | .fn _ _ _ => .fn
  | .struct _ _ => .struct
  | .tagged _ _ => .tagged
  | .union _ _ => .union
  | .iface _ _ => .iface
  | .named _ _ _ => .ident
  | .param _ => .ident
  | .stop => .ident

/-- `type_t.kind`.  utils/type.h:313. -/
def kind (t : Ty) : Kind := kind0 (core t)

/-- `is_integer`.  utils/type.h:770-781. -/
def isInteger : Kind → Bool
  | .prim .i8 | .prim .i16 | .prim .i32 | .prim .i64 => true
  | .prim .u8 | .prim .u16 | .prim .u32 | .prim .u64 => true
  | _ => false

/-- `is_float`.  utils/type.h:765-767. -/
def isFloat : Kind → Bool
  | .prim .f32 | .prim .f64 => true
  | _ => false

/-- `t.ident_kind == TYPE_IDENT_DEF && t.kind != TYPE_UNION`.  infer.c:512-513. -/
def nominal (t : Ty) : Bool :=
  match t with
  | .named _ _ b => kind0 b != .union
  | _ => false

/-- The names in the visited table.  infer.c:440. -/
abbrev Vis := List String

/-- The loop over the alternatives of the source union.  infer.c:230-246: `found` is the inner
loop over the alternatives of the target. -/
def eachIn (found : Ty → Vis → Bool × Vis) : List Ty → Vis → Bool × Vis
  | [], vis => (true, vis)
  | s :: ss, vis =>
    match found s vis with
    | (true, vis) => eachIn found ss vis
    | (false, vis) => (false, vis)

mutual
/-- `type_compare_visited`, infer.c:471-722.  `own` is false once the name of `dst` has been dealt
with, or dropped by `type_compare_no_ident` (infer.c:431-437): then `dst` is the body of the
declared type and has no identifier of its own. -/
def cmp (own : Bool) (dst src : Ty) (vis : Vis) : Bool × Vis :=
  match dst with
  | .named n a b =>
    -- 501-511: the named pointer
    if kind0 b == .ptr && (kind src == .prim .null || kind src == .ref) then
      cmp false b src vis
    -- 513-532: by name
    else if kind0 b != .union || nominal src then
      match src with
      | .named m c _ => if n == m then cmpL a c vis else (false, vis)
      | _ => (false, vis)
    -- 534-541: the named union
    else if vis.contains n then (true, vis)
    else cmp false b src (n :: vis)
  | .allT =>
    if own then (true, vis)                                             -- 477-479
    else (kind src == .allT, vis)
  | .fnT =>
    if own && kind src == .fn then (true, vis)                          -- 482-484
    else if nominal src then (false, vis)
    else (kind src == .fnT, vis)
  | .integerT =>
    if own && isInteger (kind src) then (true, vis)                     -- 487-489
    else if nominal src then (false, vis)
    else (kind src == .integerT, vis)
  | .floaterT =>
    if own && isFloat (kind src) then (true, vis)                       -- 491-493
    else if nominal src then (false, vis)
    else (kind src == .floaterT, vis)
  | .ptr d =>
    match core src with
    | .prim .null => (true, vis)                                        -- 498-500
    | .ref s => cmp true d s vis                                        -- 502-506
    | .ptr s =>
      if nominal src then (false, vis)                                  -- 513-516
      else cmp true d s vis                                             -- 714-718
    | _ => (false, vis)                                                 -- 544-546
  | .prim p =>
    if nominal src then (false, vis)
    else (kind src == .prim p, vis)                                     -- 544-546, 557-559, 721
  | .param n =>
    if nominal src then (false, vis)
    else match core src with
      | .param m => (n == m, vis)                                       -- 548-554
      | _ => (false, vis)
  | .stop => (kind src == .ident, vis)
  | .iface _ _ =>
    if nominal src then (false, vis)
    else (kind src == .iface, vis)                                      -- 721
  | .union _ ds =>
    if nominal src then (false, vis)
    else match core src with
      | .union _ ss => eachIn (fun s vis => cmpAny ds s vis) ss vis     -- 561-566
      | _ => (false, vis)
  | .tagged ns ds =>
    if nominal src then (false, vis)
    else match core src with
      | .tagged ms ss =>
        if ds.length != ss.length then (false, vis)                     -- 572-574
        else cmpF ns ds ms ss vis                                       -- 575-588
      | _ => (false, vis)
  | .map dk dv =>
    if nominal src then (false, vis)
    else match core src with
      | .map sk sv =>
        match cmp true dk sk vis with                                   -- 597-599
        | (true, vis) => cmp true dv sv vis                             -- 601-603
        | (false, vis) => (false, vis)
      | _ => (false, vis)
  | .set d =>
    if nominal src then (false, vis)
    else match core src with
      | .set s => cmp true d s vis                                      -- 608-616
      | _ => (false, vis)
  | .chan d =>
    if nominal src then (false, vis)
    else match core src with
      | .chan s => cmp true d s vis                                     -- 619-623
      | _ => (false, vis)
  | .vec d =>
    if nominal src then (false, vis)
    else match core src with
      | .vec s => cmp true d s vis                                      -- 625-629
      | _ => (false, vis)
  | .arr n d =>
    if nominal src then (false, vis)
    else match core src with
      | .arr m s =>
        if n != m then (false, vis)                                     -- 634-636
        else cmp true d s vis                                           -- 637
      | _ => (false, vis)
  | .tuple ds =>
    if nominal src then (false, vis)
    else match core src with
      | .tuple ss =>
        if ds.length != ss.length then (false, vis)                     -- 644-646
        else cmpL ds ss vis                                             -- 647-654
      | _ => (false, vis)
  | .fn df dr dps =>
    if nominal src then (false, vis)
    else match core src with
      | .fn sf sr sps =>
        match cmp true dr sr vis with                                   -- 660-662
        | (true, vis) =>
          if dps.length != sps.length then (false, vis)                 -- 664-666
          else if df.rest != sf.rest then (false, vis)                  -- 668-670
          else if df.cVariadic != sf.cVariadic then (false, vis)        -- 672-674
          else if df.errable != sf.errable then (false, vis)            -- 676-678
          else if df.fx != sf.fx then (false, vis)                      -- 680-682
          else cmpL dps sps vis                                         -- 684-690
        | (false, vis) => (false, vis)
      | _ => (false, vis)
  | .struct ns ds =>
    if nominal src then (false, vis)
    else match core src with
      | .struct ms ss =>
        if ds.length != ss.length then (false, vis)                     -- 697-699
        else cmpF ns ds ms ss vis                                       -- 701-714
      | _ => (false, vis)
  | .ref d =>
    if nominal src then (false, vis)
    else match core src with
      | .ref s => cmp true d s vis                                      -- 714-718
      | _ => (false, vis)
termination_by structural dst

/-- Types one by one: infer.c:445-464 (`type_compare_ident_args_visited`), 647-654, 684-690. -/
def cmpL (ds ss : List Ty) (vis : Vis) : Bool × Vis :=
  match ds, ss with
  | [], [] => (true, vis)
  | d :: ds, s :: ss =>
    match cmp true d s vis with
    | (true, vis) => cmpL ds ss vis
    | (false, vis) => (false, vis)
  | _, _ => (false, vis)
termination_by structural ds

/-- Fields one by one, the name before the type: infer.c:575-588, 701-714.  The two lists of names
are as long as the lists of types, so that they run out together. -/
def cmpF (ns : List String) (ds : List Ty) (ms : List String) (ss : List Ty) (vis : Vis) :
    Bool × Vis :=
  match ds with
  | [] => (ns.isEmpty && ms.isEmpty && ss.isEmpty, vis)
  | d :: ds =>
    match ns, ms, ss with
    | n :: ns, m :: ms, s :: ss =>
      if n == m then
        match cmp true d s vis with
        | (true, vis) => cmpF ns ds ms ss vis
        | (false, vis) => (false, vis)
      else (false, vis)
    | _, _, _ => (false, vis)
termination_by structural ds

/-- The loop over the alternatives of the target union.  infer.c:234-241. -/
def cmpAny (ds : List Ty) (s : Ty) (vis : Vis) : Bool × Vis :=
  match ds with
  | [] => (false, vis)
  | d :: ds =>
    match cmp true d s vis with
    | (true, vis) => (true, vis)
    | (false, vis) => cmpAny ds s vis
termination_by structural ds
end

/-- `type_compare`.  infer.c:439-443: with an empty table. -/
def compare (dst src : Ty) : Bool := (cmp true dst src []).1

/-- `union_type_contains`.  infer.c:214-225: a new table for each alternative. -/
def contains (alts : List Ty) (sub : Ty) : Bool := alts.any fun t => compare t sub

/-- `can_assign_to_interface`.  infer.c:809-824. -/
def canIface (t : Ty) : Bool :=
  match kind t with
  | .iface => false
  | .prim .any => false
  | .prim .void => false
  | .prim .null => false
  | _ => true

/-- `can_assign_to_union`.  infer.c:826-837. -/
def canUnion (t : Ty) : Bool :=
  match kind t with
  | .union => false
  | .prim .any => false
  | .prim .void => false
  | _ => true

/-- `can_assign_to_any`.  infer.c:839-850. -/
def canAny (t : Ty) : Bool :=
  match kind t with
  | .prim .any => false
  | .prim .void => false
  | _ => true

/-- `as_to_interface`.  infer.c:3691-3733: false where it reports an error.  `impl` is the answer
of `check_impl_interface_contains` (interface.c:262-301), not modelled; nor is the check that no
method of the interface is generic. -/
def asIface (impl : String → Ty → Bool) (src target : Ty) : Bool :=
  let s := match core src with
    | .ref t => t
    | .ptr t => t
    | _ => src
  match s with
  | .named n _ _ => impl n target
  | _ => false

/-- `is_nullable_interface`.  infer.c:3676-3689: the interface, if so. -/
def nullableIface (t : Ty) : Option Ty :=
  match core t with
  | .union true (d :: _) =>
    match d with
    | .iface n a => some (.iface n a)
    | _ => none
  | _ => none

/-- infer.c:3764-3767: the first conversion of `infer_right_expr`.  The type of the expression
afterwards, or none where an error is reported. -/
def stepIface (impl : String → Ty → Bool) (target src : Ty) : Option Ty :=
  if kind target == .iface && canIface src then
    if asIface impl src target then some target else none
  else some src

/-- infer.c:3769-3779: the second conversion. -/
def stepNullable (impl : String → Ty → Bool) (target src : Ty) : Option Ty :=
  match nullableIface target with
  | some i =>
    if canIface src then
      if asIface impl src i then some i else none
    else some src
  | none => some src

/-- infer.c:3781-3783: the third conversion. -/
def stepAny (target src : Ty) : Ty :=
  if kind target == .prim .any && canAny src then target else src

/-- infer.c:3785-3792: the fourth conversion. -/
def stepUnion (target src : Ty) : Option Ty :=
  match core target with
  | .union _ ds =>
    if canUnion src then
      if contains ds src then some target else none
    else some src
  | _ => some src

/-- infer.c:3795-3798: the comparison that ends `infer_right_expr`. -/
def finish (target : Ty) : Option Ty → Bool
  | none => false
  | some s => compare target s

/-- `infer_right_expr` from the point where both types are known.  infer.c:3763-3800: whether an
expression of type `src` is accepted where `target` is expected.  `TYPE_UNKNOWN` is not a type of
the model. -/
def accept (impl : String → Ty → Bool) (target src : Ty) : Bool :=
  match stepIface impl target src with
  | none => false
  | some s =>
    match stepNullable impl target s with
    | none => false
    | some s =>
      finish target (stepUnion target (stepAny target s))

end Nature.Types
