import Verif.Model.SignatoryOptions
/-!
# `DelHeaders` over list nodes

src/SignatoryOptions.cpp:211-216. `std::list` keeps each string in a node of its own; an iterator is the address of a node and is
invalid once the node has been freed. `OptOp.delHeaders` models the call for an argument that is another list; here the argument may
be the object's own list (`opts.DelHeaders(opts.GetHeaders())`: `GetHeaders` returns a reference).
-/

namespace Dkim.Nodes

/-- A node of a `std::list<std::string>`. src/SignatoryOptions.cpp:211-216, `m_headers` src/SignatoryOptions.hpp:148. -/
structure Node where
  addr : Nat
  val : Bytes
  deriving DecidableEq

/-- `remove(value)`: unlinks and frees the nodes with that value.
src/SignatoryOptions.cpp:211-216, `m_headers` src/SignatoryOptions.hpp:148. -/
def remove (l : List Node) (v : Bytes) : List Node := l.filter (fun n => n.val != v)

/-- `++it` for an iterator at node `a` of a list: undefined behaviour if the node is not there any more.
src/SignatoryOptions.cpp:211-216, `m_headers` src/SignatoryOptions.hpp:148. -/
def next : List Node → Nat → Except Err (Option Node)
  | [], _ => .error .ub
  | n :: l, a => if n.addr = a then .ok l.head? else next l a

/-- The loop `for (const auto & header : headers) m_headers.remove(header);`. `own`: `headers` is `m_headers` itself. `it` is the node
of the loop's iterator (`none` = end). src/SignatoryOptions.cpp:211-216, `m_headers` src/SignatoryOptions.hpp:148. -/
def delLoop (own : Bool) (arg : List Node) : Nat → List Node → Option Node → Except Err (List Node)
  | 0, _, _ => .error .hang
  | _ + 1, hs, none => .ok hs
  | fuel + 1, hs, some n =>
    let hs' := remove hs n.val
    match next (if own then hs' else arg) n.addr with
    | .error e => .error e
    | .ok it => delLoop own arg fuel hs' it

/-- `DelHeaders(headers)`, src/SignatoryOptions.cpp:211-216: `hs` is `m_headers`; `arg` is another list, or `none` for `m_headers` itself. -/
def delHeaders (hs : List Node) : Option (List Node) → Except Err (List Node)
  | some arg => delLoop false arg (arg.length + 1) hs arg.head?
  | none => delLoop true hs (hs.length + 1) hs hs.head?

end Dkim.Nodes
