import Verif.Chain.Model

/-
What a chain is meant to do with a message, read off its combinators one after the other.
No operation, entity or connection is mentioned.
-/
namespace Verif.Chain

variable {V : Type}

mutual
/-- What is to be observed for a message that is sent into a chain. -/
def means : Chain V → V → List (Effect V)
  | .connect s, v => [.arrive s v]
  | .unused, _ => []
  | .thenCancel text, v => [.cancelled (text v)]
  | .map f rest, v => means rest (f v)
  | .trigger unit rest, _ => means rest unit
  | .noop rest, v => means rest v
  | .branchClone branch rest, v => means branch v ++ means rest v
  | .forkClone cs, v => meansClone cs v
  | .forkUnzip view cs, v => meansZip cs (view v)
  | .spread view rest, v =>
    match view v with
    | [] => [.disposed .emptySpread]
    | xs => xs.flatMap (means rest)
  | .forkResult view ok err, v =>
    match view v with
    | .ok x => .disposed .okInput :: means ok x
    | .error x => .disposed .errInput :: means err x
  | .branchForErr view err rest, v =>
    match view v with
    | .ok x => .disposed .okInput :: means rest x
    | .error x => .disposed .errInput :: means err x
  | .connectOnErr view wrap s rest, v =>
    match view v with
    | .ok x => .disposed .okInput :: means rest x
    | .error x => [.disposed .errInput, .arrive s (wrap x)]
  | .cancelOnErr view rest, v =>
    match view v with
    | .ok x => means rest x
    | .error x => [.cancelFiltered (.err x)]
  | .cancelOnQuietErr view rest, v =>
    match view v with
    | .ok x => means rest x
    | .error _ => [.cancelFiltered .quietErr]
  | .disposeOnErr view rest, v =>
    match view v with
    | .ok x => means rest x
    | .error x => [.disposed (.err x)]
  | .disposeOnQuietErr view rest, v =>
    match view v with
    | .ok x => means rest x
    | .error _ => [.disposed .quietErr]
  | .disposeOnOk view rest, v =>
    match view v with
    | .ok _ => [.disposed .ok]
    | .error x => means rest x
  | .forkOption view unit a b, v =>
    match view v with
    | some x => .disposed .someInput :: means a x
    | none => .disposed .noneInput :: means b unit
  | .branchForNone view unit b rest, v =>
    match view v with
    | some x => .disposed .someInput :: means rest x
    | none => .disposed .noneInput :: means b unit
  | .connectOnNone view _ nothing s rest, v =>
    match view v with
    | some x => .disposed .someInput :: means rest x
    | none => [.disposed .noneInput, .arrive s nothing]
  | .cancelOnNone view rest, v =>
    match view v with
    | some x => means rest x
    | none => [.cancelFiltered .none]
  | .disposeOnNone view rest, v =>
    match view v with
    | some x => means rest x
    | none => [.disposed .none]
  | .disposeOnSome view unit rest, v =>
    match view v with
    | some _ => [.disposed .some]
    | none => means rest unit
  | .cancellationFilter f view rest, v =>
    match view (f v) with
    | some x => means rest x
    | none => [.cancelFiltered .none]
  | .disposalFilter f view rest, v =>
    match view (f v) with
    | some x => means rest x
    | none => [.disposed .none]

/-- Every branch gets the message. -/
def meansClone : Chains V → V → List (Effect V)
  | .nil, _ => []
  | .cons c cs, v => means c v ++ meansClone cs v

/-- Every branch gets the element with its index. -/
def meansZip : Chains V → List V → List (Effect V)
  | .cons c cs, x :: xs => means c x ++ meansZip cs xs
  | _, _ => []
end

end Verif.Chain
