/-!
# Programs over lists of types (include/etl/nth_type.h, type_list.h, parameter_pack.h, type_select.h, type_lookup.h, largest.h, smallest.h;
`make_index_sequence` of utility.h; `is_one_of`, `has_duplicates`, `count_of` of type_traits.h)

Templates with a parameter pack are recursive functions on lists, one equation per specialisation.  A type is an element of a type
`τ` with decidable equality (`is_same`).  A failed static assertion, or the absence of a member `type`, is `none`: the program does not
compile.
-/
namespace Etl.TypeList

variable {τ : Type} [DecidableEq τ]

/-- `nth_type<N, TTypes...>`, nth_type.h:42-71, and `nth_type<N, type_list<TTypes...>>`, type_list.h:103-125. -/
def nthType : Nat → List τ → Option τ
  | 0, t :: _ => some t
  | n + 1, _ :: rest => if n + 1 ≤ rest.length then nthType n rest else none
  | _, [] => none

/-- `type_list_select<TTypeList, Indices...>`, type_list.h:130-134: the pack expansion `type_list<nth_type_t<Indices, TTypeList>...>`. -/
def typeListSelect (ts : List τ) : List Nat → Option (List τ)
  | [] => some []
  | i :: is => match nthType i ts, typeListSelect ts is with
    | some t, some rest => some (t :: rest)
    | _, _ => none

/-- `type_list_cat<TypeLists...>`, type_list.h:158-180: two heads are joined, then the rest is treated alike. -/
def typeListCat : List τ → List (List τ) → List τ
  | ts, [] => ts
  | ts1, ts2 :: tail => typeListCat (ts1 ++ ts2) tail

/-- `private_index_sequence::make_index_sequence<N, integer_sequence<size_t, Indices...>>`, utility.h:507-523. -/
def makeIndexSequenceAux : Nat → List Nat → List Nat
  | 0, acc => acc
  | n + 1, acc => makeIndexSequenceAux n (n :: acc)

/-- `make_index_sequence<N>`, utility.h:526-527. -/
def makeIndexSequence (n : Nat) : List Nat := makeIndexSequenceAux n []

/-- `is_one_of<T, T1, TRest...>`, type_traits.h:1349-1360. -/
def isOneOf (t : τ) : List τ → Bool
  | [] => false
  | [t1] => decide (t = t1)
  | t1 :: rest => decide (t = t1) || isOneOf t rest

/-- `has_duplicates<TTypes...>`, type_traits.h:2301-2313. -/
def hasDuplicates : List τ → Bool
  | [] => false
  | [_] => false
  | t :: rest => if isOneOf t rest then true else hasDuplicates rest

/-- `count_of<T, TTypes...>`, type_traits.h:2323-2332. -/
def countOf (t : τ) : List τ → Nat
  | [] => 0
  | u :: rest => (if t = u then 1 else 0) + countOf t rest

/-- `has_duplicates_of<T, TTypes...>`, type_traits.h:2342-2343. -/
def hasDuplicatesOf (t : τ) (ts : List τ) : Bool := decide (countOf t ts > 1)

/-- `parameter_pack<TTypes...>::index_of_type<T>::index_of_type_helper`, parameter_pack.h:61-72: one more than the index. -/
def indexOfTypeHelper (t : τ) : List τ → Nat
  | [] => 0
  | [_] => 1
  | t1 :: rest => if t = t1 then 1 else 1 + indexOfTypeHelper t rest

/-- `parameter_pack<TTypes...>::index_of_type<T>::value`, parameter_pack.h:54-80. -/
def indexOfType (t : τ) (ts : List τ) : Option Nat := if isOneOf t ts then some (indexOfTypeHelper t ts - 1) else none

/-- `parameter_pack<TTypes...>::type_from_index<I>::type_from_index_helper`, parameter_pack.h:96-107, and
`type_select<TTypes...>::type_select_helper`, type_select.h:56-70. -/
def typeFromIndexHelper (i : Nat) : Nat → List τ → Option τ
  | _, [] => none
  | _, [t1] => some t1
  | n, t1 :: rest => if i = n then some t1 else typeFromIndexHelper i (n + 1) rest

/-- `parameter_pack<TTypes...>::type_from_index<I>`, parameter_pack.h:91-115; `type_select<TTypes...>::select<ID>`, type_select.h:74-80. -/
def typeFromIndex (i : Nat) (ts : List τ) : Option τ := if i < ts.length then typeFromIndexHelper i 0 ts else none

/-- `type_id_lookup<type_id_pair<T, ID>...>::type_from_id<ID>`, type_lookup.h:80-113; `nulltype` is `none`. -/
def typeFromId (id : Int) : List (τ × Int) → Option τ
  | [] => none
  | [p] => if id = p.2 then some p.1 else none
  | p :: rest => if id = p.2 then some p.1 else typeFromId id rest

/-- `id_from_type_helper`, type_lookup.h:119-135: a `size_t` of `w` bits, `UNKNOWN` being the largest. -/
def idFromTypeHelper (w : Nat) (t : τ) : List (τ × Int) → Nat
  | [] => 2 ^ w - 1
  | [p] => if t = p.1 then (p.2 % 2 ^ w).toNat else 2 ^ w - 1
  | p :: rest => if t = p.1 then (p.2 % 2 ^ w).toNat else idFromTypeHelper w t rest

/-- `id_from_type<T>`, type_lookup.h:139-147. -/
def idFromType (w : Nat) (t : τ) (ps : List (τ × Int)) : Option Nat := if idFromTypeHelper w t ps = 2 ^ w - 1 then none else some (idFromTypeHelper w t ps)

/-- `type_type_lookup<type_type_pair<T1, T2>...>::type_from_type<T>`, type_lookup.h:174-214. -/
def typeFromType (t : τ) : List (τ × τ) → Option τ
  | [] => none
  | [p] => if t = p.1 then some p.2 else none
  | p :: rest => if t = p.1 then some p.2 else typeFromType t rest

/-- `largest_type<T1, TRest...>`, largest.h:73-113 with `measure` `size_of`; `largest_alignment`, largest.h:176-208, with `alignment_of`. -/
def largestType (measure : τ → Nat) : List τ → Option τ
  | [] => none
  | [t] => some t
  | t1 :: rest => match largestType measure rest with
    | none => none
    | some other => some (if measure t1 > measure other then t1 else other)

/-- `smallest_type<T1, TRest...>`, smallest.h:73-113. -/
def smallestType (measure : τ → Nat) : List τ → Option τ
  | [] => none
  | [t] => some t
  | t1 :: rest => match smallestType measure rest with
    | none => none
    | some other => some (if measure t1 < measure other then t1 else other)

/-- `best_fit_uint_type<index>` and `best_fit_int_type<index>`, smallest.h:190-280, by their number of bits (`least` types of exactly this
many bits). -/
def bestFit : Nat → Nat
  | 0 => 8
  | 1 => 16
  | 2 => 32
  | _ => 64

/-- `smallest_uint_for_bits<NBITS>`, smallest.h:291-307, and `smallest_int_for_bits<NBITS>`, 320-336: the number of bits of the type. -/
def smallestForBits (n : Nat) : Nat := bestFit ((if n > 8 then 1 else 0) + (if n > 16 then 1 else 0) + (if n > 32 then 1 else 0))

/-- `smallest_uint_for_value<VALUE>`, smallest.h:349-362. -/
def smallestUintForValue (v : Nat) : Nat := bestFit ((if v > 2 ^ 8 - 1 then 1 else 0) + (if v > 2 ^ 16 - 1 then 1 else 0) + (if v > 2 ^ 32 - 1 then 1 else 0))

/-- `smallest_int_for_value<VALUE>`, smallest.h:378-391. -/
def smallestIntForValue (v : Int) : Nat :=
  bestFit ((if v > 2 ^ 7 - 1 ∨ v < -2 ^ 7 then 1 else 0) + (if v > 2 ^ 15 - 1 ∨ v < -2 ^ 15 then 1 else 0) + (if v > 2 ^ 31 - 1 ∨ v < -2 ^ 31 then 1 else 0))

/-- `larger_type<T>`, `larger_int_type<T>`, `larger_uint_type<T>`, largest.h:262-320, of a type of `bits` bits (`integral_limits<T>::bits`). -/
def largerType (bits : Nat) : Nat := smallestForBits (bits + 1)

end Etl.TypeList
