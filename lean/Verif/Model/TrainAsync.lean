import Verif.Model.Async

/-!
# Model of `HPELM.train_async` (hpelm/hp_elm.py:464-479)
-/

namespace Hpelm
variable {K : Type} [Field K] [LinearOrder K]

/-- First sample to use: `istart = max(0, int(kwargs["istart"]))`, default 0 (hpelm/hp_elm.py:472-475). -/
def startOf (kw : Kwargs K) : Int :=
  match kw.istart with
  | some i => max 0 i
  | none => 0

/-- The possible outcomes of `train_async`: exception or normal return, and the model afterwards.  Between the start of the
processes and the solution any execution of the three processes may happen.  The model after an exception raised by
`add_data_async` is left open (any model). -/
inductive TrainsAsync (env : Env K) (fs : Files K) (e : ELM K) (fX fT : String) (args : List String) (kw : Kwargs K) :
    Except PyErr Unit → ELM K → Prop
  /-- `_checkdata` raises (line 469) -/
  | check (x : PyErr) (h : checkBoth fs e.nnet (.path fX) (.path fT) = .error x) : TrainsAsync env fs e fX fT args kw (.error x) e
  /-- `_train_parse_args` raises (line 470) -/
  | parse (d : Mat K × Mat K) (e1 : ELM K) (x : PyErr) (h : checkBoth fs e.nnet (.path fX) (.path fT) = .ok d)
      (hp : e.parseArgs args kw = (e1, .error x)) : TrainsAsync env fs e fX fT args kw (.error x) e1
  /-- `add_data_async` raises before it starts the processes (line 478) -/
  | start (d : Mat K × Mat K) (e1 e' : ELM K) (x : PyErr) (h : checkBoth fs e.nnet (.path fX) (.path fT) = .ok d)
      (hp : e.parseArgs args kw = (e1, .ok ())) (hs : e1.asyncStart env fs fX fT (startOf kw) kw.icount none none = .error x) :
      TrainsAsync env fs e fX fT args kw (.error x) e'
  /-- `add_data_async` raises in its main loop -/
  | feed (d : Mat K × Mat K) (e1 e' : ELM K) (c : TCtx K (ELM K)) (e0 : ELM K) (fs1 : Files K) (s : TState K (ELM K)) (x : PyErr)
      (h : checkBoth fs e.nnet (.path fX) (.path fT) = .ok d)
      (hp : e.parseArgs args kw = (e1, .ok ()))
      (hs : e1.asyncStart env fs fX fT (startOf kw) kw.icount none none = .ok (c, e0, fs1))
      (hr : Relation.ReflTransGen (TStep c) (TState.init e0) s) (hd : s.main = .failed x) :
      TrainsAsync env fs e fX fT args kw (.error x) e'
  /-- `solve` raises (line 479) -/
  | solve (d : Mat K × Mat K) (e1 : ELM K) (c : TCtx K (ELM K)) (e0 : ELM K) (fs1 : Files K) (s : TState K (ELM K)) (x : PyErr)
      (h : checkBoth fs e.nnet (.path fX) (.path fT) = .ok d)
      (hp : e.parseArgs args kw = (e1, .ok ()))
      (hs : e1.asyncStart env fs fX fT (startOf kw) kw.icount none none = .ok (c, e0, fs1))
      (hr : Relation.ReflTransGen (TStep c) (TState.init e0) s) (hd : s.main = .done) (hx : s.model.nnet.solve env = .error x) :
      TrainsAsync env fs e fX fT args kw (.error x) s.model
  /-- normal return -/
  | ok (d : Mat K × Mat K) (e1 : ELM K) (c : TCtx K (ELM K)) (e0 : ELM K) (fs1 : Files K) (s : TState K (ELM K)) (n : NNet K)
      (h : checkBoth fs e.nnet (.path fX) (.path fT) = .ok d)
      (hp : e.parseArgs args kw = (e1, .ok ()))
      (hs : e1.asyncStart env fs fX fT (startOf kw) kw.icount none none = .ok (c, e0, fs1))
      (hr : Relation.ReflTransGen (TStep c) (TState.init e0) s) (hd : s.main = .done) (hx : s.model.nnet.solve env = .ok n) :
      TrainsAsync env fs e fX fT args kw (.ok ()) { s.model with nnet := n }

end Hpelm
