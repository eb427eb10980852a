import Verif.Props.Field
import Verif.Props.Dense
import Verif.Props.Avl
import Verif.Props.Sparse
import Verif.Props.Channel
import Verif.Props.Circuit
import Verif.Props.Rows
import Verif.Props.Program
import Verif.Props.Witness
import Verif.Props.Snark
import Verif.Props.SnarkAttacks
import Verif.Props.SnarkSparse
import Verif.Props.Tower
import Verif.Props.Curve
import Verif.Props.Ate
import Verif.Props.Pool
import Verif.Props.SnarkBn
import Verif.Props.InPlace
import Verif.Props.Lexer
import Verif.Props.Parser
import Verif.Props.Nested
import Verif.Props.Lang
import Verif.Props.Static
import Verif.Props.Text
import Verif.Props.Alias
import Verif.Props.Soundness
import Verif.Props.SoundnessBn
import Verif.Props.EndToEnd
import Verif.Props.KeyShape
import Verif.Props.Variables
import Verif.Props.Branch
import Verif.Spec.Plain
import Verif.Proofs.RowsTotal
import Verif.Proofs.BuildTotal
import Verif.Proofs.BuildAll
import Verif.Props.Accept
import Verif.Props.Scope
import Verif.Proofs.Fuel
import Verif.Proofs.Check
import Verif.Props.Repo
import Verif.Proofs.ParseFuel
import Verif.Proofs.Texts
import Verif.Props.RepoRows
import Verif.Props.Repo2
import Verif.Props.Repo3
import Verif.Props.Repo4
import Verif.Props.Helpers
import Verif.Props.BareReturn
import Verif.Props.Builtins
import Verif.Props.Progress
import Verif.Props.Systems
