import Verif.Model.Piped
import Verif.Spec.Mirror

/-! # Vocabulary for standard output that is not a terminal -/

namespace Verif.Mirror

/-- What has gone through the console: written, in the inner and in the outer buffer. -/
def Piped.all (p : Piped) : Bytes := p.inner.all ++ p.outer

/-- What is in the file or pipe. -/
def Piped.seen (p : Piped) : Bytes := p.inner.fd.got

end Verif.Mirror
