import Verif.Basic.Str
import Verif.Basic.Decimal
import Verif.Config.Model
import Verif.Config.Lemmas
import Verif.Config.Lemmas2
import Verif.Config.Props
import Verif.Config.Num
import Verif.Util.Tokenize
import Verif.Track.Model
import Verif.Track.Props
import Verif.Types.Timestamp
import Verif.Types.Image
import Verif.Sys.Base64
import Verif.Types.Covariance
import Verif.CApi.Utils
import Verif.Config.Location
import Verif.Config.Expand
import Verif.Sys.World
import Verif.Sys.Paths
import Verif.Sys.PathsProps
import Verif.Config.Parser
import Verif.Config.ParserSpec
import Verif.Config.ParserLex
import Verif.Config.ParserSim
import Verif.Config.ParserExec
import Verif.Config.ParserTotal
import Verif.Config.ParserRead
import Verif.Config.ParserProps
import Verif.Config.ParserIncl
import Verif.Config.ParserText
import Verif.Config.ParserReuse
import Verif.Config.Write
import Verif.Config.WriteProps
import Verif.Config.ParserFrame
import Verif.Config.ReadFile
import Verif.Config.ReadFileProps
import Verif.Algo.Model
import Verif.Algo.Registry
import Verif.Algo.Nested
import Verif.Algo.ImplCfg
import Verif.Basic.Stream
import Verif.IO.Text
import Verif.IO.Ply
import Verif.IO.PlyProps
import Verif.IO.PlyRound
import Verif.IO.TrackFile
import Verif.IO.Krtd
import Verif.Util.Enumerate
import Verif.Logger.Model
import Verif.Logger.Location
import Verif.Logger.Threads
import Verif.Geo.Basic
import Verif.Geo.Rotation
import Verif.Geo.RotMatrix
import Verif.Geo.Angle
import Verif.Geo.Ypr
import Verif.Geo.Similarity
import Verif.Geo.Homography
import Verif.Geo.Intrinsics
import Verif.Geo.Undistort
import Verif.Geo.Camera
import Verif.Geo.Epipolar
import Verif.Geo.LatLon
import Verif.Algo.Wrappers
import Verif.Algo.ImageIo
import Verif.Regex.Model
import Verif.Regex.Asm
import Verif.Regex.Parse
import Verif.Regex.Compile
import Verif.Regex.Compile2
import Verif.Regex.Compile3
import Verif.Regex.Spec
import Verif.Regex.Match
import Verif.Regex.Match2
import Verif.Regex.Find
import Verif.Regex.Grammar
import Verif.Regex.Syntax
import Verif.Regex.Syntax2
import Verif.Regex.Groups
import Verif.Regex.Props
import Verif.Regex.Object
import Verif.Regex.Link
import Verif.Regex.Examples
import Verif.CApi.ConfigHandles
import Verif.CApi.ConfigHandlesProps
import Verif.CApi.ConfigMemory
import Verif.CApi.ImageData
import Verif.CApi.Maps
import Verif.CApi.ConfigFile
import Verif.CApi.AlgoHandles
import Verif.CApi.AlgoHandlesProps
import Verif.Algo.Plugins
import Verif.Algo.PluginsProps
import Verif.Algo.PluginsOnce
import Verif.Types.Sharing
import Verif.Util.GetPaths
import Verif.CApi.ImageHandles
import Verif.CApi.ImageHandlesProps
import Verif.Py.Objects
import Verif.Sys.MD5Props
import Verif.Sys.Command
import Verif.Regex.Glob
import Verif.Regex.GlobFiles
import Verif.Sys.CmdLine
import Verif.Sys.CmdHelp
import Verif.Sys.HashTable
import Verif.Sys.HashMap
import Verif.Sys.HashMulti
import Verif.Types.Defaults
import Verif.Sys.Strings
import Verif.Sys.Strings2
import Verif.Sys.Strings3
import Verif.Sys.Lines
import Verif.Sys.OutPath
import Verif.Sys.FindProgram
import Verif.Sys.Formats
import Verif.Types.TimestampOps
import Verif.Regex.Url
import Verif.Files.Tree
import Verif.Files.Make
import Verif.Files.Remove
import Verif.Files.Copy
import Verif.Files.CopyDir
import Verif.Files.Umask
import Verif.Files.Touch
import Verif.Types.MatrixConv
import Verif.Logger.Log4cxx
import Verif.Sys.Encoding
import Verif.Sys.ArgvOwn
import Verif.Sys.Manager
import Verif.Sys.Terminal
import Verif.Files.LinksCwd
import Verif.Sys.Relative
import Verif.Proc.Config
import Verif.Proc.Time
import Verif.Proc.Table
import Verif.Proc.Wait
import Verif.Proc.WaitProps
import Verif.Proc.WaitClaims
import Verif.Proc.KillTree
import Verif.Proc.Exec
import Verif.Proc.ExecLeak
import Verif.Proc.ExecWire
import Verif.Proc.ExecClaims
import Verif.Py.Image
import Verif.Py.ConfigBlock
import Verif.Py.ConfigBlockProps
import Verif.Py.Algorithm
import Verif.Py.AlgorithmProps
import Verif.SysInfo.Model
import Verif.SysInfo.Spec
import Verif.SysInfo.Props
import Verif.SysInfo.Props2
import Verif.SysInfo.Props3
import Verif.Py.Tool
import Verif.Py.ToolProps
import Verif.Py.ToolConfig
import Verif.Sys.Translate
import Verif.Sys.TranslateProps
import Verif.Sys.TranslateClaims
import Verif.Sys.Environ
import Verif.Sys.EnvironProps
import Verif.Sys.Locate
import Verif.Sys.LocateProps
import Verif.Sys.LocateProps2
import Verif.Util.ModulePath
import Verif.Py.FindLibrary
import Verif.Sys.AutoPtr
import Verif.CApi.Lifetimes
import Verif.CApi.LifetimesProps
import Verif.Types.Conversions
import Verif.Logger.Factory
import Verif.Exceptions.Messages
import Verif.Py.Containers
import Verif.Py.Apm
import Verif.Tools.Explorer
import Verif.Files.DirObj
import Verif.Py.AlgoCalls
import Verif.Sys.HashFun
import Verif.Py.ConfigIo
import Verif.Py.Tracks
import Verif.Geo.UndistortRadial
import Verif.SysInfo.Limits
import Verif.SysInfo.StackTrace
import Verif.SysInfo.Identity
import Verif.Py.Images
import Verif.Config.Crash
import Verif.IO.TrackCrash
import Verif.IO.PlyCrash
import Verif.IO.KrtdCrash
