import Verif.TypeLayout.Model
import Verif.Bitmap.Spec
/-! Specification: where the pointers of a value are, and what it means for fields to be laid out in memory. -/
namespace Nature.TypeLayout

/-- Byte offsets of the collected pointers in the runtime's own structures (utils/type.h:481-600): the data of a string or a
vector; hash table, keys and values of a map; hash table and keys of a set; value and methods of an interface. -/
def Header.pointers : Header → List Nat
  | .string => [0]
  | .vec => [0]
  | .map => [0, 8, 16]
  | .set => [0, 8]
  | .interface => [0, 8]

/-- The same structures declared as structs: collected pointers as `ptr`; the allocator of a vector, the `rtype` of an
interface and counters as words. -/
def Header.decl : Header → Tys
  | .string => .cons .ptr (.cons .int64 (.cons .int64 (.cons .int64 (.cons .int64 (.cons .int64 .nil)))))
  | .vec => .cons .ptr (.cons .int64 (.cons .int64 (.cons .int64 (.cons .int64 (.cons .int64 .nil)))))
  | .map => .cons .ptr (.cons .ptr (.cons .ptr (.cons .int64 (.cons .int64 (.cons .int64 (.cons .int64 .nil))))))
  | .set => .cons .ptr (.cons .ptr (.cons .int64 (.cons .int64 (.cons .int64 .nil))))
  | .interface => .cons .ptr (.cons .ptr (.cons .int64 (.cons .int64 .nil)))

/-- A value of the type may hold a pointer to a collected cell at this byte offset. -/
inductive PtrAt : Ty → Nat → Prop
  | ptr : PtrAt .ptr 0
  | header {h o} : o ∈ h.pointers → PtrAt (.header h) o
  | any : PtrAt .any 8
  | union {es t o} : t ∈ es.toList → PtrAt t o → PtrAt (.union es) (8 + o)
  | tagged {es t o} : t ∈ es.toList → PtrAt t o → PtrAt (.tagged es) (8 + o)
  | arr {t n i o} : i < n → PtrAt t o → PtrAt (.arr t n) (i * sizeOf t + o)
  | struct {fs k t a o} : fs.toList[k]? = some t → fieldOffset fs k = some a → PtrAt t o → PtrAt (.struct fs) (a + o)
  | tuple {es k t a o} : es.toList[k]? = some t → fieldOffset es k = some a → PtrAt t o → PtrAt (.tuple es) (a + o)

/-- The word at this byte offset of a value of the type belongs to a union (or is the type word of an `any`): what it holds
is only known at run time. -/
inductive InUnion : Ty → Nat → Prop
  | any {o} : o < 16 → InUnion .any o
  | union {es o} : o < sizeOf (.union es) → InUnion (.union es) o
  | tagged {es o} : 8 ≤ o → o < sizeOf (.tagged es) → InUnion (.tagged es) o
  | arr {t n i o} : i < n → InUnion t o → InUnion (.arr t n) (i * sizeOf t + o)
  | struct {fs k t a o} : fs.toList[k]? = some t → fieldOffset fs k = some a → InUnion t o → InUnion (.struct fs) (a + o)
  | tuple {es k t a o} : es.toList[k]? = some t → fieldOffset es k = some a → InUnion t o → InUnion (.tuple es) (a + o)

/-- A description is right for a type: it names the place of every pointer, and no place that cannot hold one. -/
structure Describes (r : RType) (t : Ty) : Prop where
  covers : ∀ o, PtrAt t o → o % 8 = 0 ∧ o + 8 ≤ r.lastPtr ∧ Bitmap.bit r.bits (o / 8) = some true
  exact : ∀ i, Bitmap.bit r.bits i = some true → PtrAt t (8 * i) ∨ InUnion t (8 * i)
  fits : r.lastPtr ≤ r.heapSize
  bitmap : r.lastPtr ≤ 64 * r.bits.length

/-- Round up, as arithmetic: the least multiple of `a` that is not below `n`. -/
def IsRoundUp (n a m : Nat) : Prop := n ≤ m ∧ m % a = 0 ∧ ∀ m', n ≤ m' → m' % a = 0 → m ≤ m'

/-- The layout of a C compiler: every field at the least offset not below the end of the one before that its alignment
allows. -/
inductive CLayout : List Ty → Nat → List Nat → Nat → Prop
  | nil {e} : CLayout [] e [] e
  | cons {t ts e a as e'} : (if alignOf t = 0 then a = e else IsRoundUp e (alignOf t) a) →
      CLayout ts (a + sizeOf t) as e' → CLayout (t :: ts) e (a :: as) e'

end Nature.TypeLayout
