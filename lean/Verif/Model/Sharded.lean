/-
An object in several parts, each protected by its own mutex, used by any number of threads, as in
wrtstat/multi_aggregator/multi_aggregator.cpp: a call is a list of critical sections,
`{ std::lock_guard lk(*_mutex_list[pos]); _aggregator_list[pos]->operation(...); }`, made one after the other.

The body of a critical section is any sequence of small steps on its part; other threads may go on between them.
-/
import Verif.Model.Monitor

namespace Wrtstat

set_option autoImplicit false

/-- The calls: the part a section works on, the small steps of the sections, the sections of a call, its result from
the results of the sections, and the results of a section that end the call (a fault). -/
structure ShCode (K S Sec SRet Call CRet L : Type) where
  key : Sec → K
  body : Body S Sec SRet L
  plan : Call → List Sec
  ret : Call → List SRet → CRet
  stop : SRet → Bool

/-- Where a thread is: outside, or in a call with some sections done and others to be done, waiting for the mutex of the
next one, in its body, or about to release its mutex. -/
inductive ShPc (Sec SRet Call L : Type) where
  | idle
  | want (c : Call) (done : List SRet) (sec : Sec) (rest : List Sec)
  | run (c : Call) (done : List SRet) (sec : Sec) (rest : List Sec) (l : L)
  | leave (c : Call) (done : List SRet) (sec : Sec) (rest : List Sec) (r : SRet)

/-- The parts, the mutexes, the threads, the history of the calls and that of the sections. -/
structure Sharded (T K S Sec SRet Call CRet L : Type) where
  shared : K → S
  owner : K → Option T
  pc : T → ShPc Sec SRet Call L
  hist : List (HEv T Call CRet)
  shist : List (HEv T (Call × Sec) SRet)

namespace Sharded

variable {T K S Sec SRet Call CRet L : Type} [DecidableEq T] [DecidableEq K]

/-- Before any call. -/
def init (s : K → S) : Sharded T K S Sec SRet Call CRet L :=
  { shared := s, owner := fun _ => none, pc := fun _ => .idle, hist := [], shist := [] }

/-- The steps of the threads, which make only calls in `P`.  (A call without sections does nothing and is left out.) -/
inductive Step (p : ShCode K S Sec SRet Call CRet L) (P : Call → Prop) :
    Sharded T K S Sec SRet Call CRet L → Sharded T K S Sec SRet Call CRet L → Prop
  | call (m : Sharded T K S Sec SRet Call CRet L) (t : T) (c : Call) (sec : Sec) (rest : List Sec) (hP : P c)
      (h : m.pc t = .idle) (hc : p.plan c = sec :: rest) :
      Step p P m { m with pc := Function.update m.pc t (.want c [] sec rest), hist := m.hist ++ [.inv t c],
                          shist := m.shist ++ [.inv t (c, sec)] }
  | lock (m : Sharded T K S Sec SRet Call CRet L) (t : T) (c : Call) (done : List SRet) (sec : Sec) (rest : List Sec)
      (h : m.pc t = .want c done sec rest) (ho : m.owner (p.key sec) = none) :
      Step p P m { m with pc := Function.update m.pc t (.run c done sec rest (p.body.start sec)),
                          owner := Function.update m.owner (p.key sec) (some t) }
  | small (m : Sharded T K S Sec SRet Call CRet L) (t : T) (c : Call) (done : List SRet) (sec : Sec) (rest : List Sec)
      (l l' : L) (s' : S) (h : m.pc t = .run c done sec rest l) (hn : p.body.next l (m.shared (p.key sec)) = (s', .inl l')) :
      Step p P m { m with shared := Function.update m.shared (p.key sec) s',
                          pc := Function.update m.pc t (.run c done sec rest l') }
  | last (m : Sharded T K S Sec SRet Call CRet L) (t : T) (c : Call) (done : List SRet) (sec : Sec) (rest : List Sec)
      (l : L) (r : SRet) (s' : S) (h : m.pc t = .run c done sec rest l)
      (hn : p.body.next l (m.shared (p.key sec)) = (s', .inr r)) :
      Step p P m { m with shared := Function.update m.shared (p.key sec) s',
                          pc := Function.update m.pc t (.leave c done sec rest r) }
  | again (m : Sharded T K S Sec SRet Call CRet L) (t : T) (c : Call) (done : List SRet) (sec sec' : Sec) (rest : List Sec)
      (r : SRet) (h : m.pc t = .leave c done sec (sec' :: rest) r) (hr : p.stop r = false) :
      Step p P m { m with pc := Function.update m.pc t (.want c (done ++ [r]) sec' rest),
                          owner := Function.update m.owner (p.key sec) none,
                          shist := m.shist ++ [.res t (c, sec) r] ++ [.inv t (c, sec')] }
  | ret (m : Sharded T K S Sec SRet Call CRet L) (t : T) (c : Call) (done : List SRet) (sec : Sec) (rest : List Sec)
      (r : SRet) (h : m.pc t = .leave c done sec rest r) (hr : rest = [] ∨ p.stop r = true) :
      Step p P m { m with pc := Function.update m.pc t .idle, owner := Function.update m.owner (p.key sec) none,
                          hist := m.hist ++ [.res t c (p.ret c (done ++ [r]))],
                          shist := m.shist ++ [.res t (c, sec) r] }

end Sharded
end Wrtstat
