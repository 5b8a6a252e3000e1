import Verif.Model.Start
import Verif.Model.KeyProgram

/-! The tool from its start to `run_longterm` (/repo/siggy/src/signode/signode.go:27). -/
namespace Verif.Start
open Verif.Dkg Verif.Signode
variable {K : Type}

/-- The parameters of the program as it makes long-term keys (run_longterm.go:6, 11; runner.go:42-44). -/
def keyCfg (st : Started) (r : Rest K) : KeyProgram.Cfg K :=
  let dkg := dkgConf (r.y 0 0) "" 0 st.layout.members.length
  { base := programCfg st r, start := st.startAt, interval := (Prot.protocolTimeout dkg + 1000) * 1000000,
    allow := fun t => Prot.runnerAllowance dkg (unixMilli t) }

end Verif.Start
