import Verif.Props.HostMatch
import Verif.Props.Fnmatch
import Verif.Props.RuleMatch
import Verif.Props.Caf
import Verif.Props.NetText
import Verif.Props.Ranges
import Verif.Props.Groups
import Verif.Props.GroupHeap
import Verif.Props.Collapse
import Verif.Props.Sort
import Verif.Props.Port
import Verif.Props.IntText
import Verif.Props.PortUtil
import Verif.Props.Config
import Verif.Props.Learn
import Verif.Props.Lookup
import Verif.Props.Resolve
import Verif.Props.Detect
import Verif.Props.Iface
import Verif.Props.Banner
import Verif.Props.Pfsense
import Verif.Props.PfSep
import Verif.Props.PfIface
import Verif.Props.PfConfig
import Verif.Props.Nat
import Verif.Props.FwsmIface
import Verif.Props.AddrText
import Verif.Props.CollapseMixed
import Verif.Props.ConfigName
import Verif.Props.AclText
import Verif.Props.AclTextLimits
import Verif.Model.FwsmText
import Verif.Spec.FwsmSpec
import Verif.Lemmas.FwsmInv
import Verif.Lemmas.FwsmCmd
import Verif.Lemmas.FwsmClean
import Verif.Props.FwsmLines
import Verif.Spec.RangeSpec
import Verif.Spec.FwsmNatSpec
import Verif.Spec.FwsmFileSpec
import Verif.Lemmas.RangeBlocks
import Verif.Lemmas.FwsmRead
import Verif.Lemmas.FwsmReadSvc
import Verif.Lemmas.FwsmReadObj
import Verif.Lemmas.FwsmReadTime
import Verif.Lemmas.FwsmReadIface
import Verif.Lemmas.FwsmReadCmd
import Verif.Lemmas.FwsmReadNat
import Verif.Lemmas.FwsmReadFile
import Verif.Props.FwsmFile
import Verif.Model.CafText
import Verif.Model.CafFilter
import Verif.Spec.CafTextSpec
import Verif.Lemmas.CafText
import Verif.Lemmas.CafNet
import Verif.Lemmas.CafRead
import Verif.Lemmas.CafInv
import Verif.Props.CafText
import Verif.Props.CafFilter
import Verif.Props.FwsmNat
import Verif.Props.FwsmTime
import Verif.Lemmas.IosRead
import Verif.Lemmas.IosReadHost
import Verif.Lemmas.IosReadRule
import Verif.Lemmas.IosReadList
import Verif.Lemmas.IosReadNamed
import Verif.Lemmas.IosReadIp6
import Verif.Lemmas.IosReadGroup
import Verif.Lemmas.IosReadIface
import Verif.Lemmas.IosReadCmd
import Verif.Lemmas.IosReadIp
import Verif.Lemmas.IosReadFile
import Verif.Model.IosConfig
import Verif.Spec.IosConfigSpec
import Verif.Props.IosFile
import Verif.Props.IosLimits
import Verif.Spec.IosLinesSpec
import Verif.Lemmas.IosLineLogic
import Verif.Lemmas.IosLineBanner
import Verif.Lemmas.IosLineCmd
import Verif.Lemmas.IosLineRule
import Verif.Props.IosLines
import Verif.Spec.ExpandSpec
import Verif.Props.ExpandFilter
import Verif.Props.IosConfig
import Verif.Props.IosRoutes
import Verif.Lemmas.FwsmSync
import Verif.Lemmas.FwsmRefuse
import Verif.Lemmas.IosStart
import Verif.Lemmas.IosRefuse
import Verif.Model.DetectText
import Verif.Props.DetectText
import Verif.Model.ConfigFilter
import Verif.Props.ConfigFilter
import Verif.Model.PfFilter
import Verif.Props.PfFilter
import Verif.Props.PfRender
import Verif.Model.Render
import Verif.Props.Render
import Verif.Props.AcceptedFilter
import Verif.Props.AcceptedHosts
import Verif.Model.FileText
import Verif.Lemmas.Utf8
import Verif.Props.FileText
import Verif.Spec.LeavesSpec
import Verif.Props.HostDiverge
import Verif.Model.ExpandFilter
import Verif.Props.PfHosts
import Verif.Props.AcceptedExpand
import Verif.Model.Web
import Verif.Props.AcceptedRender
import Verif.Props.Web
import Verif.Model.Page
import Verif.Spec.PageSpec
import Verif.Props.Page
import Verif.Props.PageSamples
import Verif.Props.PageSort
import Verif.Props.PageConfig
import Verif.Model.Static
import Verif.Props.Static
import Verif.Props.StaticSamples
import Verif.Spec.DosSpec
import Verif.Lemmas.Dos
import Verif.Lemmas.DosPat
import Verif.Lemmas.DosTac
import Verif.Lemmas.DosAcl
import Verif.Lemmas.DosFwsm
import Verif.Lemmas.DosBanner
import Verif.Lemmas.DosIos
import Verif.Lemmas.DosCaf
import Verif.Lemmas.DosConfig
import Verif.Props.Dos
import Verif.Spec.RefsSpec
import Verif.Lemmas.FwsmRefs
import Verif.Props.FwsmRefs
import Verif.Spec.HeapSpec
import Verif.Lemmas.FwsmHeap
import Verif.Props.FwsmPage
import Verif.Props.FwsmObjects
import Verif.Lemmas.FwsmIcmp
import Verif.Props.FwsmSettled
import Verif.Props.FwsmPageSample
import Verif.Props.FwsmSettledSample
import Verif.Model.AclFilter
import Verif.Props.AclFilter
import Verif.Model.WebConc
import Verif.Spec.WebConcSpec
import Verif.Props.WebConc
import Verif.Spec.PfHeapSpec
import Verif.Lemmas.PfHeap
import Verif.Props.PfPage
import Verif.Props.PfObjects
import Verif.Spec.IosRefsSpec
import Verif.Lemmas.IosRefs
import Verif.Props.IosRefs
import Verif.Spec.IosHeapSpec
import Verif.Lemmas.IosHeap
import Verif.Props.IosPage
import Verif.Props.IosObjects
import Verif.Props.IosSettled
import Verif.Props.IosPageSample
import Verif.Model.PageExpand
import Verif.Spec.PageExpandSpec
import Verif.Props.PageExpand
import Verif.Props.PageExpandKeeps
import Verif.Props.ExpandNested
import Verif.Props.ExpandPage
import Verif.Props.ExpandPageSample
import Verif.Props.PfIfaceExact
import Verif.Props.PageExpandRaises
import Verif.Props.LookupExact
import Verif.Props.SortExact
import Verif.Props.CafExact
import Verif.Props.Cells
import Verif.Props.Row
import Verif.Props.IosRow
import Verif.Props.Section
import Verif.Props.PfRow
import Verif.Props.NatRow
import Verif.Props.NetSection
import Verif.Props.TimeSection
import Verif.Props.IfaceSection
import Verif.Props.RouteRow
