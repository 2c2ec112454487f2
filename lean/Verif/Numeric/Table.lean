import Verif.Numeric.Model
/-
The search for handlers, tabulated: which handler is found for each operator and each pair of
classes.
-/
namespace Verif.Numeric

/-- The handlers found, by pairs of classes. -/
def tab (a b : Cls) (op : Op) : Option Fn :=
  match a, b with
  | .symBool, .symBool =>
    match op with
    | .eq | .ne | .and | .or | .xor => some (.bin .bools)
    | .ge | .gt | .le | .lt | .add | .sub | .mul | .floordiv | .mod | .pow => some (.backward .boolToInt)
    | .truediv => some (.bin .divIndex)
    | .rshift | .lshift => some (.bin .shift)
  | .symBool, .symInt =>
    match op with
    | .eq | .ne | .ge | .gt | .le | .lt | .add | .sub | .mul | .floordiv | .mod | .pow => some (.forward .boolToInt)
    | .truediv => some (.backward .divToFloat)
    | .and => some (.bin .and)
    | .or | .xor => some (.bin .orXor)
    | .rshift | .lshift => some (.bin .shift)
  | .symBool, .realF =>
    match op with
    | .eq | .ne | .ge | .gt | .le | .lt | .add | .sub | .mul | .truediv | .floordiv | .mod | .pow | .and | .or | .xor | .rshift | .lshift => some (.forward .boolToInt)
  | .symBool, .precise =>
    match op with
    | .eq | .ne | .ge | .gt | .le | .lt | .add | .sub | .mul | .truediv | .floordiv | .mod | .pow | .and | .or | .xor | .rshift | .lshift => some (.forward .boolToInt)
  | .symBool, .pyBool =>
    match op with
    | .eq | .ne | .ge | .gt | .le | .lt | .add | .sub | .mul | .floordiv | .mod | .pow => some (.forward .boolToInt)
    | .truediv => some (.bin .divIndex)
    | .and | .or | .xor => some (.bin .boolNative)
    | .rshift | .lshift => some (.bin .shift)
  | .symBool, .pyInt =>
    match op with
    | .eq | .ne | .ge | .gt | .le | .lt | .add | .sub | .mul | .floordiv | .mod | .pow => some (.forward .boolToInt)
    | .truediv => some (.bin .divIndex)
    | .and => some (.bin .and)
    | .or | .xor => some (.bin .orXor)
    | .rshift | .lshift => some (.bin .shift)
  | .symBool, .pyFloat =>
    match op with
    | .eq | .ne | .ge | .gt | .le | .lt | .add | .sub | .mul | .truediv | .floordiv | .mod | .pow | .and | .or | .xor | .rshift | .lshift => some (.forward .boolToInt)
  | .symInt, .symBool =>
    match op with
    | .eq | .ne | .ge | .gt | .le | .lt | .add | .sub | .mul | .floordiv | .mod | .pow => some (.backward .boolToInt)
    | .truediv => some (.forward .divToFloat)
    | .and => some (.bin .and)
    | .or | .xor => some (.bin .orXor)
    | .rshift | .lshift => some (.bin .shift)
  | .symInt, .symInt =>
    match op with
    | .eq | .ne | .le | .lt => some (.bin .intsCmp)
    | .ge | .gt => some (.flipped .intsCmp)
    | .add | .sub | .mul | .floordiv | .mod | .pow => some (.bin .ints)
    | .truediv => some (.backward .divToFloat)
    | .and => some (.bin .and)
    | .or | .xor => some (.bin .orXor)
    | .rshift | .lshift => some (.bin .shift)
  | .symInt, .realF =>
    match op with
    | .eq | .ne | .ge | .gt | .le | .lt | .add | .sub | .mul | .floordiv | .mod | .pow => some (.forward .intToFloat)
    | .truediv => some (.forward .divToFloat)
    | _ => none
  | .symInt, .precise =>
    match op with
    | .eq | .ne | .ge | .gt | .le | .lt | .add | .sub | .mul | .floordiv | .mod | .pow => some (.forward .intToFloat)
    | .truediv => some (.forward .divToFloat)
    | _ => none
  | .symInt, .pyBool =>
    match op with
    | .eq | .ne | .ge | .gt | .le | .lt => some (.bin .intNativeCmp)
    | .add | .sub | .mul | .floordiv | .mod | .pow => some (.bin .intNative)
    | .truediv => some (.forward .divToFloat)
    | .and => some (.bin .and)
    | .or | .xor => some (.bin .orXor)
    | .rshift | .lshift => some (.bin .shift)
  | .symInt, .pyInt =>
    match op with
    | .eq | .ne | .ge | .gt | .le | .lt => some (.bin .intNativeCmp)
    | .add | .sub | .mul | .floordiv | .mod | .pow => some (.bin .intNative)
    | .truediv => some (.forward .divToFloat)
    | .and => some (.bin .and)
    | .or | .xor => some (.bin .orXor)
    | .rshift | .lshift => some (.bin .shift)
  | .symInt, .pyFloat =>
    match op with
    | .eq | .ne | .ge | .gt | .le | .lt | .add | .sub | .mul | .floordiv | .mod | .pow => some (.forward .intToFloat)
    | .truediv => some (.forward .divToFloat)
    | _ => none
  | .symInt, .finF =>
    match op with
    | .eq | .ne | .ge | .gt | .le | .lt | .add | .sub | .mul | .truediv | .floordiv | .mod | .pow => some (.forward .intToFloat)
    | _ => none
  | .realF, .symBool =>
    match op with
    | .eq | .ne | .ge | .gt | .le | .lt | .add | .sub | .mul | .truediv | .floordiv | .mod | .pow | .and | .or | .xor | .rshift | .lshift => some (.backward .boolToInt)
  | .realF, .symInt =>
    match op with
    | .eq | .ne | .ge | .gt | .le | .lt | .add | .sub | .mul | .floordiv | .mod | .pow => some (.backward .intToFloat)
    | .truediv => some (.backward .divToFloat)
    | _ => none
  | .realF, .realF =>
    match op with
    | .eq | .ne | .le | .lt => some (.bin .floatsCmp)
    | .ge | .gt => some (.flipped .floatsCmp)
    | .add | .sub | .mul | .truediv | .pow => some (.bin .floats)
    | .floordiv => some (.bin .floatFloordiv)
    | .mod => some (.bin .floatMod)
    | _ => none
  | .realF, .precise =>
    match op with
    | .eq | .ne | .le | .lt => some (.bin .floatsCmp)
    | .ge | .gt => some (.flipped .floatsCmp)
    | .add | .sub | .mul | .truediv | .floordiv | .mod | .pow => some (.bin .floats)
    | _ => none
  | .realF, .pyBool =>
    match op with
    | .eq | .ne | .ge | .gt | .le | .lt | .add | .sub | .mul | .truediv | .floordiv | .mod | .pow => some (.backward .nativeBool)
    | _ => none
  | .realF, .pyInt =>
    match op with
    | .eq | .ne | .ge | .gt | .le | .lt | .add | .sub | .mul | .truediv | .floordiv | .mod | .pow => some (.backward .nativeToFloat)
    | _ => none
  | .realF, .pyFloat =>
    match op with
    | .eq | .ne | .ge | .gt | .le | .lt | .add | .sub | .mul | .truediv | .floordiv | .mod | .pow => some (.forward .wrap)
    | _ => none
  | .realF, .finF =>
    match op with
    | .eq | .ne | .ge | .gt | .le | .lt => some (.bin .floatKindCmp)
    | .add | .sub | .mul | .truediv | .pow => some (.bin .floatKind)
    | .floordiv => some (.bin .floatFloordiv)
    | .mod => some (.bin .floatMod)
    | _ => none
  | .realF, .nonFin =>
    match op with
    | .eq | .ne | .add | .sub | .mul | .truediv | .pow => some (.bin .nonFinRight)
    | .ge | .gt | .le | .lt => some (.flipped .nonFinLeft)
    | .floordiv => some (.bin .floatFloordiv)
    | .mod => some (.bin .floatMod)
    | _ => none
  | .precise, .symBool =>
    match op with
    | .eq | .ne | .ge | .gt | .le | .lt | .add | .sub | .mul | .truediv | .floordiv | .mod | .pow | .and | .or | .xor | .rshift | .lshift => some (.backward .boolToInt)
  | .precise, .symInt =>
    match op with
    | .eq | .ne | .ge | .gt | .le | .lt | .add | .sub | .mul | .floordiv | .mod | .pow => some (.backward .intToFloat)
    | .truediv => some (.backward .divToFloat)
    | _ => none
  | .precise, .realF =>
    match op with
    | .eq | .ne | .le | .lt => some (.bin .floatsCmp)
    | .ge | .gt => some (.flipped .floatsCmp)
    | .add | .sub | .mul | .truediv | .floordiv | .mod | .pow => some (.bin .floats)
    | _ => none
  | .precise, .precise =>
    match op with
    | .eq | .ne | .le | .lt => some (.bin .floatsCmp)
    | .ge | .gt => some (.flipped .floatsCmp)
    | .add | .sub | .mul | .truediv | .floordiv | .mod | .pow => some (.bin .floats)
    | _ => none
  | .precise, .pyBool =>
    match op with
    | .eq | .ne | .ge | .gt | .le | .lt | .add | .sub | .mul | .truediv | .floordiv | .mod | .pow => some (.backward .nativeBool)
    | _ => none
  | .precise, .pyInt =>
    match op with
    | .eq | .ne | .ge | .gt | .le | .lt | .add | .sub | .mul | .truediv | .floordiv | .mod | .pow => some (.backward .nativeToFloat)
    | _ => none
  | .precise, .pyFloat =>
    match op with
    | .eq | .ne | .ge | .gt | .le | .lt | .add | .sub | .mul | .truediv | .floordiv | .mod | .pow => some (.forward .wrap)
    | _ => none
  | .precise, .finF =>
    match op with
    | .eq | .ne | .ge | .gt | .le | .lt => some (.bin .floatKindCmp)
    | .add | .sub | .mul | .truediv | .floordiv | .mod | .pow => some (.bin .floatKind)
    | _ => none
  | .precise, .nonFin =>
    match op with
    | .eq | .ne | .ge | .gt | .le | .lt => some (.bin .floatKindCmp)
    | .add | .sub | .mul | .truediv | .floordiv | .mod | .pow => some (.bin .floatKind)
    | _ => none
  | .pyBool, .symBool =>
    match op with
    | .eq | .ne | .ge | .gt | .le | .lt | .add | .sub | .mul | .floordiv | .mod | .pow => some (.backward .boolToInt)
    | .truediv => some (.bin .divIndex)
    | .and | .or | .xor => some (.bin .nativeBool)
    | .rshift | .lshift => some (.bin .shift)
  | .pyBool, .symInt =>
    match op with
    | .eq | .ne => some (.forward .nativeBool)
    | .ge | .gt | .le | .lt => some (.flipped .intNativeCmp)
    | .add | .sub | .mul | .floordiv | .mod | .pow => some (.bin .nativeInt)
    | .truediv => some (.backward .divToFloat)
    | .and => some (.bin .and)
    | .or | .xor => some (.bin .orXor)
    | .rshift | .lshift => some (.bin .shift)
  | .pyBool, .realF =>
    match op with
    | .eq | .ne | .ge | .gt | .le | .lt | .add | .sub | .mul | .truediv | .floordiv | .mod | .pow => some (.forward .nativeBool)
    | _ => none
  | .pyBool, .precise =>
    match op with
    | .eq | .ne | .ge | .gt | .le | .lt | .add | .sub | .mul | .truediv | .floordiv | .mod | .pow => some (.forward .nativeBool)
    | _ => none
  | .pyBool, .pyBool =>
    match op with
    | .truediv => some (.bin .divIndex)
    | .and => some (.bin .and)
    | .or | .xor => some (.bin .orXor)
    | .rshift | .lshift => some (.bin .shift)
    | _ => none
  | .pyBool, .pyInt =>
    match op with
    | .truediv => some (.bin .divIndex)
    | .and => some (.bin .and)
    | .or | .xor => some (.bin .orXor)
    | .rshift | .lshift => some (.bin .shift)
    | _ => none
  | .pyBool, .pyFloat =>
    match op with
    | .eq | .ne | .ge | .gt | .le | .lt | .add | .sub | .mul | .truediv | .floordiv | .mod | .pow => some (.forward .nativeToFloat)
    | _ => none
  | .pyBool, .finF =>
    match op with
    | .eq | .ne | .ge | .gt | .le | .lt | .add | .sub | .mul | .truediv | .floordiv | .mod | .pow => some (.forward .nativeToFloat)
    | _ => none
  | .pyInt, .symBool =>
    match op with
    | .eq | .ne | .ge | .gt | .le | .lt | .add | .sub | .mul | .floordiv | .mod | .pow => some (.backward .boolToInt)
    | .truediv => some (.bin .divIndex)
    | .and => some (.bin .and)
    | .or | .xor => some (.bin .orXor)
    | .rshift | .lshift => some (.bin .shift)
  | .pyInt, .symInt =>
    match op with
    | .ge | .gt | .le | .lt => some (.flipped .intNativeCmp)
    | .add | .sub | .mul | .floordiv | .mod | .pow => some (.bin .nativeInt)
    | .truediv => some (.backward .divToFloat)
    | .and => some (.bin .and)
    | .or | .xor => some (.bin .orXor)
    | .rshift | .lshift => some (.bin .shift)
    | _ => none
  | .pyInt, .realF =>
    match op with
    | .eq | .ne | .ge | .gt | .le | .lt | .add | .sub | .mul | .truediv | .floordiv | .mod | .pow => some (.forward .nativeToFloat)
    | _ => none
  | .pyInt, .precise =>
    match op with
    | .eq | .ne | .ge | .gt | .le | .lt | .add | .sub | .mul | .truediv | .floordiv | .mod | .pow => some (.forward .nativeToFloat)
    | _ => none
  | .pyInt, .pyBool =>
    match op with
    | .truediv => some (.bin .divIndex)
    | .and => some (.bin .and)
    | .or | .xor => some (.bin .orXor)
    | .rshift | .lshift => some (.bin .shift)
    | _ => none
  | .pyInt, .pyInt =>
    match op with
    | .truediv => some (.bin .divIndex)
    | .and => some (.bin .and)
    | .or | .xor => some (.bin .orXor)
    | .rshift | .lshift => some (.bin .shift)
    | _ => none
  | .pyInt, .pyFloat =>
    match op with
    | .eq | .ne | .ge | .gt | .le | .lt | .add | .sub | .mul | .truediv | .floordiv | .mod | .pow => some (.forward .nativeToFloat)
    | _ => none
  | .pyInt, .finF =>
    match op with
    | .eq | .ne | .ge | .gt | .le | .lt | .add | .sub | .mul | .truediv | .floordiv | .mod | .pow => some (.forward .nativeToFloat)
    | _ => none
  | .pyFloat, .symBool =>
    match op with
    | .eq | .ne | .ge | .gt | .le | .lt | .add | .sub | .mul | .truediv | .floordiv | .mod | .pow | .and | .or | .xor | .rshift | .lshift => some (.backward .boolToInt)
  | .pyFloat, .symInt =>
    match op with
    | .eq | .ne | .ge | .gt | .le | .lt | .add | .sub | .mul | .floordiv | .mod | .pow => some (.backward .intToFloat)
    | .truediv => some (.backward .divToFloat)
    | _ => none
  | .pyFloat, .realF =>
    match op with
    | .eq | .ne | .ge | .gt | .le | .lt | .add | .sub | .mul | .truediv | .floordiv | .mod | .pow => some (.backward .wrap)
    | _ => none
  | .pyFloat, .precise =>
    match op with
    | .eq | .ne | .ge | .gt | .le | .lt | .add | .sub | .mul | .truediv | .floordiv | .mod | .pow => some (.backward .wrap)
    | _ => none
  | .pyFloat, .pyBool =>
    match op with
    | .eq | .ne | .ge | .gt | .le | .lt | .add | .sub | .mul | .truediv | .floordiv | .mod | .pow => some (.backward .nativeToFloat)
    | _ => none
  | .pyFloat, .pyInt =>
    match op with
    | .eq | .ne | .ge | .gt | .le | .lt | .add | .sub | .mul | .truediv | .floordiv | .mod | .pow => some (.backward .nativeToFloat)
    | _ => none
  | .pyFloat, .pyFloat =>
    match op with
    | .eq | .ne | .ge | .gt | .le | .lt | .add | .sub | .mul | .truediv | .floordiv | .mod | .pow => some (.backward .wrap)
    | _ => none
  | .finF, .symInt =>
    match op with
    | .eq | .ne | .ge | .gt | .le | .lt | .add | .sub | .mul | .truediv | .floordiv | .mod | .pow => some (.backward .intToFloat)
    | _ => none
  | .finF, .realF =>
    match op with
    | .ge | .gt | .le | .lt => some (.flipped .floatKindCmp)
    | .add | .sub | .mul | .truediv | .pow => some (.bin .kindFloat)
    | .floordiv => some (.bin .floatFloordiv)
    | .mod => some (.bin .floatMod)
    | _ => none
  | .finF, .precise =>
    match op with
    | .ge | .gt | .le | .lt => some (.flipped .floatKindCmp)
    | .add | .sub | .mul | .truediv | .floordiv | .mod | .pow => some (.bin .kindFloat)
    | _ => none
  | .finF, .pyBool =>
    match op with
    | .eq | .ne | .ge | .gt | .le | .lt | .add | .sub | .mul | .truediv | .floordiv | .mod | .pow => some (.backward .nativeToFloat)
    | _ => none
  | .finF, .pyInt =>
    match op with
    | .eq | .ne | .ge | .gt | .le | .lt | .add | .sub | .mul | .truediv | .floordiv | .mod | .pow => some (.backward .nativeToFloat)
    | _ => none
  | .finF, .finF =>
    match op with
    | .floordiv => some (.bin .floatFloordiv)
    | .mod => some (.bin .floatMod)
    | _ => none
  | .finF, .nonFin =>
    match op with
    | .eq | .ne | .add | .sub | .mul | .truediv | .pow => some (.bin .nonFinRight)
    | .ge | .gt | .le | .lt => some (.flipped .nonFinLeft)
    | .floordiv => some (.bin .floatFloordiv)
    | .mod => some (.bin .floatMod)
    | _ => none
  | .nonFin, .realF =>
    match op with
    | .eq | .ne | .ge | .gt | .le | .lt | .add | .sub | .mul | .truediv | .pow => some (.bin .nonFinLeft)
    | .floordiv => some (.bin .floatFloordiv)
    | .mod => some (.bin .floatMod)
    | _ => none
  | .nonFin, .precise =>
    match op with
    | .ge | .gt | .le | .lt => some (.flipped .floatKindCmp)
    | .add | .sub | .mul | .truediv | .floordiv | .mod | .pow => some (.bin .kindFloat)
    | _ => none
  | .nonFin, .finF =>
    match op with
    | .eq | .ne | .ge | .gt | .le | .lt | .add | .sub | .mul | .truediv | .pow => some (.bin .nonFinLeft)
    | .floordiv => some (.bin .floatFloordiv)
    | .mod => some (.bin .floatMod)
    | _ => none
  | .nonFin, .nonFin =>
    match op with
    | .floordiv => some (.bin .floatFloordiv)
    | .mod => some (.bin .floatMod)
    | _ => none
  | _, _ => none

def allOps : List Op := cmpOps ++ arithOps ++ bitOps

def allCls : List Cls :=
  [.symBool, .symInt, .realF, .precise, .pyBool, .pyInt, .pyFloat, .finF, .nonFin]

theorem mem_allOps (op : Op) : op ∈ allOps := by cases op <;> decide

theorem mem_allCls (c : Cls) : c ∈ allCls := by cases c <;> decide

/-- The table is right, checked entry by entry. -/
def check : Bool :=
  allOps.all fun op => allCls.all fun a => allCls.all fun b => decide
    (((searchOrder.reverse.filter fun e => decide (e.op = op)).find? fun e =>
      issub a e.a && issub b e.b).map Entry.fn = tab a b op)

theorem check_true : check = true := by decide +kernel

theorem lookup_eq (op : Op) (a b : Cls) : lookup op a b = tab a b op := by
  have h := check_true
  unfold check at h
  rw [List.all_eq_true] at h
  have h1 := h op (mem_allOps op)
  rw [List.all_eq_true] at h1
  have h2 := h1 a (mem_allCls a)
  rw [List.all_eq_true] at h2
  have h3 := of_decide_eq_true (h2 b (mem_allCls b))
  rw [List.find?_filter] at h3
  rw [← h3]
  unfold lookup
  simp only [Bool.and_assoc, Bool.decide_and, Bool.decide_eq_true]

/-- `oper` with the table. -/
def operT (E : Env) (op : Op) (a b : Val) : Except Err Val :=
  dispatch E (binopWith (fun op a b => tab a b op) E 6) op a b

theorem oper_eq (E : Env) : oper E = operT E := by
  have h : lookup = fun op a b => tab a b op := by
    funext op a b
    exact lookup_eq op a b
  funext op a b
  unfold oper operT binop
  rw [h]

end Verif.Numeric
