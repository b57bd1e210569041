import Verif.Expr.Model

/-!
Text of expressions: `ExpressionNodeVisitor`, `ToTextNodeVisitor` and the `accept` methods of the nodes.
V = aslam_backend_expressions/include/aslam/backend/ExpressionNodeVisitor.hpp, X = aslam_backend_expressions/src/ToTextNodeVisitor.cpp.
Strings are lists of characters. How a value is printed by the stream operators is a parameter.
-/
namespace Verif.Text
open Verif.Expr (Node Ty Val)

/-- What a visitor is shown: a null pointer (V:51-58), a plain string (V:33-39, V:80-82) or a node with name, arguments and value (V:84-135). -/
inductive Vis : Type
  | null
  | str (s : List Char)
  | node (name : List Char) (args : List Vis) (value : List Char)

/-- `NodeImpl::visitArg<I>`, V:111-123: the search from the last argument down. -/
def visitArg (args : List Vis) (argIndex : Nat) : (I : Nat) → Option Vis
  | 0 => none
  | I + 1 => if I = argIndex then args[I]? else visitArg args argIndex I

/-- `NodeImpl::accept`, V:100-105. -/
def argument (args : List Vis) (argIndex : Nat) : Res (Option Vis) :=
  if args.length ≤ argIndex then .exc else .ok (visitArg args argIndex args.length)

mutual
/-- What is written to the stream `text`, X:9-28. -/
def write (text : List Char) : Vis → List Char
  | .null => text ++ ['<', '>']
  | .str s => text ++ s
  | .node name args value => (if args.isEmpty then text ++ name else writeArgs (text ++ name ++ ['(']) args ++ [')']) ++ '=' :: value

/-- The loop X:21-24. It runs over the arguments in the order of their indices, see `C101_arguments`. -/
def writeArgs (text : List Char) : List Vis → List Char
  | [] => text
  | a :: as => writeArgs (if as.isEmpty then write text a else write text a ++ [',', ' ']) as
end

/-- `getText` after the visitor was accepted by several expressions, ToTextNodeVisitor.h:13: the stream is never cleared. -/
def getText (ts : List Vis) : List Char := ts.foldl write []

/-- How values are printed (V:93-97) and the names of C++ types (V:80-82), which the compiler chooses. -/
structure Printer where
  value : (ty : Ty) → Val ty → List Char
  typeName : {ty : Ty} → Node ty → List Char

/-- A node whose value is computed when it is visited, V:84-135. The value of a child is computed before, a failure there ends the visit. -/
def shown (P : Printer) {ty : Ty} (name : String) (v : Res (Val ty)) (args : List Vis) : Res Vis :=
  v >>= fun x => .ok (.node name.toList args (P.value ty x))

/-- The `accept` methods: ScalarExpressionNode.cpp:23-25, 297-315, EuclideanExpressionNode.cpp:355-365, VectorExpressionNode.hpp:39,
implementation/VectorExpressionNode.hpp:29-37, RotationExpressionNode.cpp:19-21, TransformationExpressionNode.cpp:48-50, 109-119,
TransformationBasic.cpp:79-81. Nodes without their own method use the one of their base class. Homogeneous points and matrices have none; they do not
occur below nodes that show their arguments. -/
noncomputable def tree (P : Printer) (env : Expr.Env) : {ty : Ty} → Node ty → Res Vis
  | _, e@(.sconst _) => shown P "#" (Expr.val env e) []
  | _, e@(.smul a b) => tree P env a >>= fun x => tree P env b >>= fun y => shown P "*" (Expr.val env e) [x, y]
  | _, e@(.sdiv a b) => tree P env a >>= fun x => tree P env b >>= fun y => shown P "/" (Expr.val env e) [x, y]
  | _, e@(.sadd a b _) => tree P env a >>= fun x => tree P env b >>= fun y => shown P "+" (Expr.val env e) [x, y]
  | _, e@(.sun .neg a) => tree P env a >>= fun x => shown P "-" (Expr.val env e) [x]
  | .S, e => .ok (.str (P.typeName e))
  | _, e@(.econst _) => shown P "#" (Expr.val env e) []
  | _, e@(.estack a b c) => tree P env a >>= fun x => tree P env b >>= fun y => tree P env c >>= fun z => shown P "#" (Expr.val env e) [x, y, z]
  | _, e@(.eadd a b) => tree P env a >>= fun x => tree P env b >>= fun y => shown P "+" (Expr.val env e) [x, y]
  | _, e@(.ecross a b) => tree P env a >>= fun x => tree P env b >>= fun y => shown P "x" (Expr.val env e) [x, y]
  | _, e@(.erot _ a b) => tree P env a >>= fun x => tree P env b >>= fun y => shown P "*" (Expr.val env e) [x, y]
  | .E, e => shown P "V" (Expr.val env e) []
  | .R, e => shown P "C" (Expr.val env e) []
  | _, e@(.tconst _) => shown P "#" (Expr.val env e) []
  | _, e@(.tbasic a b) => tree P env a >>= fun x => tree P env b >>= fun y => shown P "TB" (Expr.val env e) [x, y]
  | _, e@(.tbasicR a) => tree P env a >>= fun x => shown P "TB" (Expr.val env e) [x, .null]
  | _, e@(.tbasicE b) => tree P env b >>= fun y => shown P "TB" (Expr.val env e) [.null, y]
  | _, e@(.tmul _ a b) => tree P env a >>= fun x => tree P env b >>= fun y => shown P "*" (Expr.val env e) [x, y]
  | _, e@(.tinv _ a) => tree P env a >>= fun x => shown P "^-1" (Expr.val env e) [x]
  | .H, _ => .ok .null
  | .M, _ => .ok .null

end Verif.Text
