import Verif.Proof.ApbSplit

/-!
# C133: a reset of only one end of an APB connection
-/

namespace Verif.Apb

variable {σ : Type}

/-- **C133, exactly once.** In every history in which the master or the slave is reset alone only while no access is in progress (both
together at any time): the accesses that the slave has performed since the last reset of the master are the transfers of the
operations called since then, in order, each once, up to some point; and the target is in the state that these accesses lead to. Missing (and
false, `C133_violated`): a reset of one end during an access. -/
theorem C133_exactly_once_partial (slverr : Bool) (f : Access σ) (st : σ) (evs : List SplitEv) (hc : CalmAll slverr f st evs) :
    let y := Sys.splitExec slverr f st evs
    y.s.log <+: y.m.epoch.flatMap (·.xs) ∧ (serveAll slverr f y.s.log y.base).2 = (y.s.mem, y.s.prdata) := by
  intro y
  have h := Sys.splitExec_inv slverr f st evs hc
  obtain ⟨rest, hr⟩ := h.pre
  exact ⟨⟨rest, hr.symm⟩, by rw [h.srv]⟩

/-- **C133, the answers.** In such a history the operations completed since the last reset of the master are the first ones called since
then, and each of them got exactly the samples that it gets when the operations are executed one after the other. -/
theorem C133_answers_partial (slverr : Bool) (f : Access σ) (st : σ) (evs : List SplitEv) (hc : CalmAll slverr f st evs) :
    let y := Sys.splitExec slverr f st evs
    y.m.done <+: (serial slverr f y.m.epoch y.base).1 := by
  intro y
  have h := Sys.splitExec_inv slverr f st evs hc
  obtain ⟨pre, _, h2, _⟩ := h.core.parts
  have hep := h.m.book.epoch
  show y.m.done <+: (serial slverr f y.m.epoch y.base).1
  rw [show y.m.epoch = _ from hep, serial_append, h2]
  exact ⟨_, rfl⟩

/-- **C133, at rest.** In such a history, when no operation is in flight, the operations called since the last reset of the
master have all completed, with the results of executing them one after the other, and the target is in the state this leads to. -/
theorem C133_idle_partial (slverr : Bool) (f : Access σ) (st : σ) (evs : List SplitEv) (hc : CalmAll slverr f st evs) :
    let y := Sys.splitExec slverr f st evs
    y.m.idle = true → serial slverr f y.m.epoch y.base = (y.m.done, (y.s.mem, y.s.prdata)) := by
  intro y hidle
  have h : y.HInv slverr f := Sys.splitExec_inv slverr f st evs hc
  obtain ⟨pre, h1, h2, h3, h4⟩ := h.core.parts
  have hfl := h.m.book.flight
  simp only [Master.idle, decide_eq_true_eq] at hidle
  have hz : y.m.active ++ y.m.queue = [] := by
    apply List.length_eq_zero_iff.1; omega
  have ha : y.m.active = [] := (List.append_eq_nil_iff.1 hz).1
  rw [ha] at h4
  have hp : pre = [] := by simpa using h4
  rw [h.m.book.epoch, hz, List.append_nil]
  rw [hp] at h3
  simp only [serveAll] at h3
  rw [h3, h2]

/-! ## Witnesses -/

/-- A target that is a counter: a write adds the data to it, a read gets its value. -/
def tally : Access Nat
  | .write x, n => ((none, false), n + x.data)
  | .read _, n => ((some n, false), n)

def tlW : Op := ⟨0, [.write ⟨0, 2, 5, 1⟩]⟩
def tlR : Op := ⟨1, [.read ⟨0, 2⟩]⟩
def tlX : Op := ⟨2, [.write ⟨0, 2, 7, 1⟩]⟩

/-- Up to the access of a write that the slave has performed on a target that takes longer. -/
def tlPre : List SplitEv :=
  [.both (.reset true), .both (.reset false), .both (.call tlW), .both (.edge false false false), .both (.edge false false true)]

/-- The master is reset alone then, and another write is issued. -/
def tlMaster : List SplitEv :=
  tlPre ++ [.resetM true, .resetM false, .both (.call tlX), .both (.edge false false true), .both (.edge false false false),
    .both (.edge false false false)]

/-- The slave is reset alone then. -/
def tlSlave : List SplitEv :=
  tlPre ++ [.resetS true, .resetS false, .both (.edge false false false), .both (.edge false false false)]

/-- **C133, violated.** (1) Reset of the master alone during an access: a later write of 7 is reported complete with OKAY, but the slave
has not performed it. (2) Reset of the slave alone during an access: a write of 5, called once and reported complete once, has been performed
twice. -/
theorem C133_violated :
    (let y := Sys.splitExec true tally 0 tlMaster
     y.m.results = [(tlW, none), (tlX, some [(0, .okay)])] ∧ y.s.log = [] ∧ y.s.mem = 5) ∧
    (let y := Sys.splitExec true tally 0 tlSlave
     y.m.results = [(tlW, some [(0, .okay)])] ∧ y.s.log = tlW.xs ++ tlW.xs ∧ y.s.mem = 10) := by
  decide +kernel

/-- A history that meets the hypothesis: the slave is reset alone while the master has a transfer in its setup phase, the master finds
it in reset, and the write is performed when the slave is back; then the master is reset alone (which sets the event of the
finished write once more, C35), and a read is performed. -/
def tlCalm : List SplitEv :=
  [.both (.reset true), .both (.reset false), .both (.call tlW), .both (.edge false false false), .resetS true,
   .both (.edge false false false), .both (.edge false false false), .resetS false, .both (.edge false true false),
   .both (.edge false false true), .both (.edge false false false), .both (.edge false false false),
   .resetM true, .resetM false, .both (.call tlR), .both (.edge false false false), .both (.edge false false false),
   .both (.edge false false false)]

def calmB (y : Sys Nat) : SplitEv → Bool
  | .resetM true | .resetS true => !y.m.bus.penable || decide (y.s.pc = .stopped)
  | _ => true

theorem calm_of_bool {evs : List SplitEv}
    (h : (List.range evs.length).all (fun n => match evs[n]? with
      | some e => calmB (Sys.splitExec true tally 0 (evs.take n)) e
      | none => true) = true) : CalmAll true tally 0 evs := by
  intro n e hn
  have h1 := List.all_eq_true.mp h n (List.mem_range.mpr (List.getElem?_eq_some_iff.1 hn).1)
  simp only [hn] at h1
  match e, h1 with
  | .both _, _ => trivial
  | .resetM false, _ => trivial
  | .resetS false, _ => trivial
  | .resetM true, h1 => simpa [calmB, Calm] using h1
  | .resetS true, h1 => simpa [calmB, Calm] using h1

example : CalmAll true tally 0 tlCalm := calm_of_bool (by decide +kernel)

example : (Sys.splitExec true tally 0 tlCalm).m.results = [(tlW, some [(0, .okay)]), (tlW, none), (tlR, some [(5, .okay)])] ∧
    (Sys.splitExec true tally 0 tlCalm).m.idle = true ∧ (Sys.splitExec true tally 0 tlCalm).s.log = tlR.xs ∧
    (Sys.splitExec true tally 0 (tlCalm.take 12)).s.log = tlW.xs := by decide +kernel

end Verif.Apb
