import Verif.Props.DepMgr
import Verif.Props.Resource
import Verif.Props.Session
import Verif.Props.RunLoop
import Verif.Props.Stats
import Verif.Props.Qualifiers
import Verif.Props.Origin
import Verif.Props.SessionList
import Verif.Props.RFC822
import Verif.Props.Pod
import Verif.Props.IOLog
import Verif.Props.Suspend
import Verif.Props.ResumeJson
import Verif.Props.ResumeDoc
import Verif.Props.PatternGrammar
import Verif.Props.Storage
import Verif.Props.Words
import Verif.Props.Pattern
import Verif.Props.Overrides
import Verif.Props.Checksum
import Verif.Props.Template
import Verif.Props.Ctrl
import Verif.Props.Cache
import Verif.Props.Runner
import Verif.Props.Launcher
import Verif.Props.Device
import Verif.Props.Extcmd
import Verif.Props.Signal
import Verif.Props.Restart
import Verif.Props.Config
import Verif.Props.ConfigWrite
import Verif.Props.Assistant
import Verif.Props.Imports
import Verif.Props.Select
import Verif.Model.Export
import Verif.Props.Export
import Verif.Model.Plugins
import Verif.Props.Plugins
import Verif.Model.Path
import Verif.Lemmas.Path
import Verif.Model.Classify
import Verif.Lemmas.Classify
import Verif.Props.Classify
import Verif.Model.Content
import Verif.Props.Content
import Verif.Model.Rx
import Verif.Lemmas.Rx
import Verif.Model.Definition
import Verif.Props.Definition
import Verif.Model.Dialogue
import Verif.Lemmas.Dialogue
import Verif.Props.Dialogue
import Verif.Model.Backtrack
import Verif.Lemmas.Backtrack
import Verif.Props.Backtrack
import Verif.Model.Progress
import Verif.Props.Progress
import Verif.Model.Packaging
import Verif.Props.Packaging
import Verif.Model.Duration
import Verif.Props.Duration
import Verif.Model.Validate
import Verif.Props.Validate
import Verif.Model.Install
import Verif.Lemmas.Install
import Verif.Props.Install
import Verif.Model.Transport
import Verif.Lemmas.Transport
import Verif.Props.Transport
import Verif.Model.Sheet
import Verif.Props.Sheet
import Verif.Model.Remote
import Verif.Lemmas.Remote
import Verif.Props.Remote
import Verif.Model.Narrow
import Verif.Lemmas.Narrow
import Verif.Props.Narrow
import Verif.Model.Life
import Verif.Lemmas.Life
import Verif.Props.Life
import Verif.Model.Brine
import Verif.Lemmas.Brine
import Verif.Props.Brine
import Verif.Model.Netref
import Verif.Lemmas.Netref
import Verif.Props.Netref
import Verif.Model.SendQueue
import Verif.Lemmas.SendQueue
import Verif.Props.SendQueue
import Verif.Model.Fields
import Verif.Lemmas.Fields
import Verif.Props.Fields
import Verif.Model.Effects
import Verif.Lemmas.Effects
import Verif.Props.Effects
import Verif.Model.Replies
import Verif.Lemmas.Replies
import Verif.Props.Replies
import Verif.Model.Wake
import Verif.Lemmas.Wake
import Verif.Props.Wake
import Verif.Model.Again
import Verif.Lemmas.Again
import Verif.Props.Again
import Verif.Model.Nest
import Verif.Props.Nest
import Verif.Model.Choose
import Verif.Props.Choose
import Verif.Model.Peek
import Verif.Props.Peek
import Verif.Model.Retry
import Verif.Props.Retry
import Verif.Model.PlanCheck
import Verif.Props.PlanCheck
import Verif.Model.Where
import Verif.Lemmas.Where
import Verif.Props.Where
import Verif.Model.Varies
import Verif.Props.Varies
import Verif.Model.Exit
import Verif.Props.Exit
import Verif.Model.Hints
import Verif.Props.Hints
import Verif.Model.Stream
import Verif.Lemmas.Stream
import Verif.Props.Stream
import Verif.Model.Tools
import Verif.Props.Tools
import Verif.Model.Leftover
import Verif.Props.Leftover
import Verif.Model.Verdict
import Verif.Props.Verdict
import Verif.Model.Junit
import Verif.Props.Junit
import Verif.Model.Flat
import Verif.Lemmas.Flat
import Verif.Props.Flat
import Verif.Model.Submission
import Verif.Lemmas.Submission
import Verif.Props.Submission
import Verif.Model.Comments
import Verif.Props.Comments
import Verif.Model.Html
import Verif.Lemmas.Html
import Verif.Props.Html
import Verif.Model.Sibling
import Verif.Lemmas.Sibling
import Verif.Props.Sibling
import Verif.Model.IniText
import Verif.Lemmas.IniText
import Verif.Props.IniText
import Verif.Model.Sections
import Verif.Lemmas.Sections
import Verif.Lemmas.SectionsWrite
import Verif.Props.Sections
import Verif.Props.SectionsWrite
import Verif.Model.PodClass
import Verif.Props.PodClass
import Verif.Model.Enumerate
import Verif.Props.Enumerate
import Verif.Model.Report
import Verif.Props.Report
import Verif.Model.Locate
import Verif.Props.Locate
import Verif.Model.Cookie
import Verif.Props.Cookie
import Verif.Model.ByName
import Verif.Props.ByName
import Verif.Model.Symbols
import Verif.Props.Symbols
import Verif.Model.Analyze
import Verif.Props.Analyze
import Verif.Model.Translate
import Verif.Props.Translate
import Verif.Model.Build
import Verif.Props.Build
import Verif.Model.Older
import Verif.Lemmas.Older
import Verif.Props.Older
import Verif.Model.Shell
import Verif.Props.Shell
import Verif.Model.Pager
import Verif.Props.Pager
import Verif.Model.Listing
import Verif.Props.Listing
import Verif.Model.I18n
import Verif.Props.I18n
import Verif.Model.Sdist
import Verif.Props.Sdist
import Verif.Model.WarmUp
import Verif.Props.WarmUp
import Verif.Model.Help
import Verif.Props.Help
import Verif.Model.Registry
import Verif.Lemmas.Registry
import Verif.Props.Registry
import Verif.Model.Vinegar
import Verif.Props.Vinegar
import Verif.Model.Para
import Verif.Props.Para
import Verif.Model.Live
import Verif.Lemmas.Live
import Verif.Props.Live
import Verif.Model.Password
import Verif.Lemmas.Password
import Verif.Props.Password
import Verif.Model.Qml
import Verif.Props.Qml
import Verif.Model.InstallText
import Verif.Props.InstallText
import Verif.Model.Sysinfo
import Verif.Lemmas.Sysinfo
import Verif.Props.Sysinfo
import Verif.Model.Visit
import Verif.Props.Visit
import Verif.Model.Spread
import Verif.Props.Spread
import Verif.Model.Dot
import Verif.Props.Dot
import Verif.Model.Usage
import Verif.Props.Usage
import Verif.Model.Color
import Verif.Props.Color
import Verif.Model.UsageText
import Verif.Props.UsageText
import Verif.Model.SuspendJson
import Verif.Lemmas.SuspendJson
import Verif.Props.SuspendJson
import Verif.Model.CheckConfig
import Verif.Props.CheckConfig
import Verif.Model.ScriptCmd
import Verif.Props.ScriptCmd
import Verif.Model.Shared
import Verif.Props.Shared
import Verif.Model.ShowCmd
import Verif.Props.ShowCmd
import Verif.Model.Wrappers
import Verif.Props.Wrappers
import Verif.Model.Logs
import Verif.Props.Logs
import Verif.Model.Later
import Verif.Props.Later
import Verif.Model.Params
import Verif.Props.Params
import Verif.Model.Helpers
import Verif.Props.Helpers
import Verif.Model.Serve
import Verif.Props.Serve
import Verif.Model.Skel
import Verif.Props.Skel
import Verif.Model.Dump
import Verif.Props.Dump
import Verif.Model.Boot
import Verif.Props.Boot
