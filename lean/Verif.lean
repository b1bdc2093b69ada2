import Verif.AbufProps
import Verif.AnsnProps
import Verif.ArpProps
import Verif.AvlProps
import Verif.BmfProps
import Verif.BuildMsgProps
import Verif.CksumProps
import Verif.CollideProps
import Verif.ConfGenProps
import Verif.ConfProps
import Verif.CookieProps
import Verif.CrcProps
import Verif.DedupProps
import Verif.DlProps
import Verif.DupProps
import Verif.DynGwPlainProps
import Verif.DynGwProps
import Verif.EgFileProps
import Verif.EgRouteProps
import Verif.EgressProps
import Verif.FgwProps
import Verif.ForwardProps
import Verif.FpmProps
import Verif.GwCostProps
import Verif.GwEntProps
import Verif.GwListProps
import Verif.GwSpeedProps
import Verif.HelloProps
import Verif.HistProps
import Verif.HnaConfProps
import Verif.HnaProps
import Verif.HystProps
import Verif.IfaceProps
import Verif.InfoCmdProps
import Verif.InfoHttpProps
import Verif.InfoOutProps
import Verif.InfoProps
import Verif.InfoReqProps
import Verif.IpcalcProps
import Verif.JsonProps
import Verif.LinkProps
import Verif.ListProps
import Verif.LockProps
import Verif.LqCostProps
import Verif.LqFpmProps
import Verif.LqMprProps
import Verif.LqWindowProps
import Verif.MantissaProps
import Verif.MdnsElectProps
import Verif.MdnsProps
import Verif.MidProps
import Verif.MprProps
import Verif.NameProps
import Verif.NetbufProps
import Verif.NiitProps
import Verif.NlProps
import Verif.NmeaFrameProps
import Verif.NmeaGsaProps
import Verif.NmeaGsvProps
import Verif.NmeaSaneProps
import Verif.NmeaTimeProps
import Verif.NsSelProps
import Verif.OverallProps
import Verif.P2pdProps
import Verif.ParserProps
import Verif.PlParamProps
import Verif.PosAvgProps
import Verif.PosFileProps
import Verif.ProcProps
import Verif.PudIdProps
import Verif.PudMoveProps
import Verif.PudMsgProps
import Verif.PudPosProps
import Verif.PudStateProps
import Verif.PudUplinkProps
import Verif.RfcHelloProps
import Verif.RfcTcProps
import Verif.RouteProps
import Verif.SchedTimeProps
import Verif.SecAuthProps
import Verif.SecSigProps
import Verif.SeqnoProps
import Verif.SgwConfProps
import Verif.SockProps
import Verif.SpfProps
import Verif.StrProps
import Verif.SwitchProps
import Verif.TcInvProps
import Verif.TcPktProps
import Verif.TcSetProps
import Verif.TimerProps
import Verif.TunnelProps
import Verif.TwoHopProps
import Verif.WifiProps
import Verif.WillProps
import Verif.WireProps
import Verif.ZebraHnaProps
import Verif.ZebraProps
