import Verif.Base.Str
import Verif.Base.AMap
import Verif.Base.ListAux
import Verif.Model.Cache
import Verif.Spec.Cache
import Verif.Proof.Cache
import Verif.Proof.CacheSim
import Verif.Proof.CacheFlush
import Verif.Proof.CacheGhost
import Verif.Proof.CacheLru
import Verif.Proof.CacheMore
import Verif.Props.Cache
import Verif.Model.Lock
import Verif.Proof.Lock
import Verif.Proof.LockProgress
import Verif.Model.CacheSections
import Verif.Spec.CacheHistory
import Verif.Proof.CacheSections
import Verif.Proof.CacheHistory
import Verif.Props.Lock
import Verif.Model.CacheConc
import Verif.Model.CacheFiles
import Verif.Model.CacheRace
import Verif.Proof.CacheConc
import Verif.Props.CacheConc
import Verif.Props.CacheRace
import Verif.Spec.CacheSerial
import Verif.Proof.CacheSerial
import Verif.Props.CacheSerial
import Verif.Base.StrLemmas
import Verif.Base.Trim
import Verif.Model.Language
import Verif.Model.LanguageAlias
import Verif.Spec.Language
import Verif.Proof.Language
import Verif.Proof.LanguageAlias
import Verif.Proof.LanguageRun
import Verif.Props.Language
import Verif.Base.Decimal
import Verif.Model.Dataset
import Verif.Spec.Dataset
import Verif.Proof.Dataset
import Verif.Proof.DatasetWF
import Verif.Proof.DatasetConv
import Verif.Spec.DatasetPrint
import Verif.Proof.DatasetPrint
import Verif.Spec.DatasetClone
import Verif.Proof.DatasetClone
import Verif.Proof.DatasetBisim
import Verif.Spec.DatasetBuild
import Verif.Proof.DatasetBuild
import Verif.Proof.DatasetStep
import Verif.Proof.DatasetIndep
import Verif.Proof.DatasetFinds
import Verif.Proof.DatasetPrintTotal
import Verif.Props.Dataset
import Verif.Props.DatasetClone
import Verif.Model.Template
import Verif.Spec.Template
import Verif.Proof.TemplateLex
import Verif.Proof.TemplateCompile
import Verif.Proof.TemplateBuild
import Verif.Proof.TemplateScope
import Verif.Model.TemplateExec
import Verif.Spec.TemplateRender
import Verif.Spec.TemplateApart
import Verif.Proof.TemplateExec
import Verif.Proof.DatasetBound
import Verif.Proof.TemplateData
import Verif.Proof.TemplateRender
import Verif.Proof.TemplateTotal
import Verif.Spec.TemplateBreaks
import Verif.Spec.TemplateEndless
import Verif.Proof.TemplateSafe
import Verif.Proof.TemplateBreaks
import Verif.Proof.TemplateEndless
import Verif.Proof.TemplateNil
import Verif.Spec.TemplateComment
import Verif.Spec.TemplateGraph
import Verif.Spec.DataLook
import Verif.Spec.TemplateLook
import Verif.Proof.TemplateComment
import Verif.Proof.TemplateElem
import Verif.Proof.TemplateAgain
import Verif.Proof.DataEntry
import Verif.Proof.DataSharp
import Verif.Proof.TemplateMore
import Verif.Proof.TemplatePage
import Verif.Proof.TemplateSteady
import Verif.Spec.EqualData
import Verif.Proof.EqualData
import Verif.Proof.TemplatePrune
import Verif.Proof.TemplateLoad
import Verif.Proof.TemplateBroken
import Verif.Spec.TemplateClone
import Verif.Proof.TemplateClone
import Verif.Proof.TemplateFrame
import Verif.Proof.TemplateLook
import Verif.Proof.TemplateSharp
import Verif.Proof.TemplateGraph
import Verif.Proof.TemplateAdd
import Verif.Props.Template
import Verif.Props.TemplateRender
import Verif.Spec.TemplateUnloaded
import Verif.Proof.TemplateUnloaded
import Verif.Props.TemplatePanic
import Verif.Props.TemplateEqual
import Verif.Props.TemplateLook
import Verif.Props.DataLook
import Verif.Proof.TemplateInsert
import Verif.Props.TemplateComment
import Verif.Props.TemplateClone
import Verif.Props.TemplateAdd
import Verif.Model.Method
import Verif.Model.TSMethods
import Verif.Model.CollectionConc
import Verif.Spec.Method
import Verif.Spec.TSMethods
import Verif.Spec.CollectionConc
import Verif.Proof.Method
import Verif.Proof.TSMethods
import Verif.Proof.CollectionConc
import Verif.Proof.CollectionTurns
import Verif.Props.TSMethods
import Verif.Model.LanguageConc
import Verif.Model.LanguageRace
import Verif.Spec.LanguageConc
import Verif.Spec.LanguageRace
import Verif.Proof.LanguageConc
import Verif.Proof.LanguageRace
import Verif.Props.LanguageConc
import Verif.Props.LanguageRace
import Verif.Props.CollectionConc
import Verif.Props.CollectionTurns
import Verif.Model.Xml
import Verif.Model.Zero
import Verif.Spec.Xml
import Verif.Spec.XmlDoc
import Verif.Proof.Xml
import Verif.Proof.XmlRef
import Verif.Proof.XmlText
import Verif.Proof.XmlMarkup
import Verif.Proof.XmlTok
import Verif.Proof.XmlDoc
import Verif.Props.Xml
import Verif.Props.XmlDoc
import Verif.Proof.Numbers
import Verif.Props.Numbers
import Verif.Model.Files
import Verif.Props.Files
import Verif.Spec.DatasetTree
import Verif.Proof.DatasetTree
import Verif.Proof.DataClone
import Verif.Props.DataClone
import Verif.Model.Nested
import Verif.Spec.Nested
import Verif.Proof.Nested
import Verif.Proof.NestedRank
import Verif.Proof.NestedEnd
import Verif.Proof.NestedSched
import Verif.Proof.NestedCover
import Verif.Proof.NestedAlone
import Verif.Props.Nested
import Verif.Spec.NestedAtomic
import Verif.Spec.NestedLinear
import Verif.Proof.NestedAtomic
import Verif.Proof.NestedLinear
import Verif.Props.NestedAtomic
import Verif.Props.NestedLinear
import Verif.Model.V1.Cache
import Verif.Model.V1.Zero
import Verif.Model.V1.Language
import Verif.Model.V1.Dataset
import Verif.Model.V1.CacheConc
import Verif.Model.V1.CacheRace
import Verif.Model.V1.CacheValidator
import Verif.Model.V1.Template
import Verif.Model.V1.TemplateConc
import Verif.Spec.V1.Cache
import Verif.Spec.V1.Zero
import Verif.Spec.CacheFiles
import Verif.Spec.V1.CacheSerial
import Verif.Spec.V1.CacheRace
import Verif.Spec.V1.CacheLru
import Verif.Spec.V1.CacheValidator
import Verif.Spec.V1.Language
import Verif.Spec.V1.Dataset
import Verif.Spec.V1.Template
import Verif.Spec.V1.TemplateConc
import Verif.Spec.V1.TemplateNames
import Verif.Spec.V1.TemplateGraph
import Verif.Spec.V1.TemplateComment
import Verif.Spec.V1.Page
import Verif.Spec.VersionPages
import Verif.Proof.V1.Cache
import Verif.Proof.V1.CacheLru
import Verif.Proof.V1.Language
import Verif.Proof.V1.Dataset
import Verif.Proof.V1.CacheConc
import Verif.Proof.V1.CacheRace
import Verif.Proof.V1.CacheSerial
import Verif.Proof.V1.CacheValidator
import Verif.Proof.V1.CacheValidatorPlain
import Verif.Proof.V1.TemplateLex
import Verif.Proof.V1.TemplateBuild
import Verif.Proof.V1.TemplateRender
import Verif.Proof.V1.TemplateSafe
import Verif.Proof.V1.TemplateAdd
import Verif.Proof.V1.Page
import Verif.Proof.V1.TemplateComment
import Verif.Proof.V1.DataClone
import Verif.Proof.VersionPages
import Verif.Proof.CacheFiles
import Verif.Proof.CacheFilesConc
import Verif.Proof.V1.Zero
import Verif.Proof.V1.TemplateConc
import Verif.Proof.V1.TemplateLooks
import Verif.Proof.V1.TemplateNames
import Verif.Spec.V1.TemplateLook
import Verif.Spec.V1.DataLook
import Verif.Proof.V1.TemplateLook
import Verif.Proof.V1.TemplateSharp
import Verif.Proof.V1.DataLook
import Verif.Proof.V1.DataEntry
import Verif.Props.V1.Cache
import Verif.Props.V1.CacheSerial
import Verif.Props.V1.CacheRace
import Verif.Props.V1.CacheLru
import Verif.Props.V1.CacheValidator
import Verif.Props.V1.Language
import Verif.Props.V1.Dataset
import Verif.Props.V1.Template
import Verif.Props.V1.TemplateAdd
import Verif.Props.V1.Page
import Verif.Props.V1.TemplateComment
import Verif.Props.V1.DataClone
import Verif.Props.VersionPages
import Verif.Props.CacheFiles
import Verif.Props.V1.Zero
import Verif.Props.V1.TemplateConc
import Verif.Props.V1.TemplateNames
import Verif.Props.V1.DataLook
import Verif.Model.Regexp
import Verif.Proof.Regexp
import Verif.Props.Regexp
import Verif.Model.CacheWords
import Verif.Proof.CacheWords
import Verif.Props.CacheWords
import Verif.Spec.Zero
import Verif.Proof.Zero
import Verif.Props.Zero
import Verif.Model.TemplateConc
import Verif.Spec.TemplateConc
import Verif.Proof.TemplateConc
import Verif.Proof.TemplateApart
import Verif.Proof.TemplateConcSure
import Verif.Proof.TemplateConcAll
import Verif.Proof.TemplateConcPage
import Verif.Props.TemplateConc
import Verif.Props.TemplateApart
import Verif.Model.CacheValidator
import Verif.Spec.CacheValidator
import Verif.Spec.CacheConc
import Verif.Spec.CacheRace
import Verif.Proof.CacheConcSafe
import Verif.Proof.CacheRace
import Verif.Proof.CacheValidator
import Verif.Proof.CacheValidatorPlain
import Verif.Props.CacheValidator
import Verif.Model.Scanner
import Verif.Model.Slices
import Verif.Model.TrimSpace
import Verif.Proof.TrimSpace
import Verif.Proof.Scanner
import Verif.Proof.Slices
import Verif.Props.Scanner
import Verif.Props.Slices
import Verif.Spec.Page
import Verif.Spec.Slices
import Verif.Proof.Page
import Verif.Proof.PageBuild
import Verif.Proof.PageTotal
import Verif.Props.Page
