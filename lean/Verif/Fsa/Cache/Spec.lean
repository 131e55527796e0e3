import Verif.Fsa.Cache.Model

/-! What the queries should return: the same functions, without a cache. -/

namespace Verif.Fsa.Cac
variable {T S R : Type}

/-- Forward scores and entering arcs. -/
def freshFwd (o : Ops T S R) (m : Mem T S) (d l : Bool) : Option (R × R) :=
  (o.stateBatches m.topo).bind fun b =>
    (((o.destStates m.topo).bind (o.incomingArcs m.topo)).bind fun i =>
      (o.stateBatches m.topo).bind (o.enteringBatches m.topo i)).bind fun e =>
        o.forward d l m.topo m.scores b e

/-- Backward scores. -/
def freshBwd (o : Ops T S R) (m : Mem T S) (d l : Bool) : Option R :=
  (o.stateBatches m.topo).bind fun b =>
    ((o.stateBatches m.topo).bind (o.leavingBatches m.topo)).bind fun a =>
      o.backward d l m.topo m.scores b a

/-- Arc posteriors. -/
def freshPost (o : Ops T S R) (m : Mem T S) (d l : Bool) : Option R :=
  ((freshFwd o m d l).map Prod.fst).bind fun f => (freshBwd o m d l).bind fun b =>
    o.arcPost d m.topo m.scores f b

/-- The entering arcs with the given precision. -/
def freshEnt (o : Ops T S R) (m : Mem T S) (d : Bool) : Option R := (freshFwd o m d false).map Prod.snd

/-- The queries computed from the arcs and scores (entering arcs, which depend on the precision, are in
`freshEnt`). -/
def fresh (o : Ops T S R) (m : Mem T S) : Key → Option R
  | .stateBatches => o.stateBatches m.topo
  | .destStates => o.destStates m.topo
  | .incomingArcs => (o.destStates m.topo).bind (o.incomingArcs m.topo)
  | .enteringArcBatches =>
    ((o.destStates m.topo).bind (o.incomingArcs m.topo)).bind fun i =>
      (o.stateBatches m.topo).bind (o.enteringBatches m.topo i)
  | .leavingArcBatches => (o.stateBatches m.topo).bind (o.leavingBatches m.topo)
  | .forward d l => (freshFwd o m d l).map Prod.fst
  | .enteringArcs => freshEnt o m true
  | .tot d l => ((freshFwd o m d l).map Prod.fst).bind (o.tot d m.topo)
  | .backward d l => freshBwd o m d l
  | .arcPost d l => freshPost o m d l
  | .arcCdf d l => (freshPost o m d l).bind (o.arcCdf d m.topo)

end Verif.Fsa.Cac
