import Verif.Spec.TemplateComment
import Verif.Spec.V1.Template

/-! # Templates of version 1 up to comments -/

namespace Xcore.V1.Template

/-- What meta elements start with, except box tags. -/
def openers : List Str := [b!"%--", b!"##", b!"&&", b!"@@", b!"??", b!"!!", b!"{{"]

end Xcore.V1.Template
