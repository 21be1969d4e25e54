#!/usr/bin/env python3
"""Mutation test: apply edits to the model in a scratch copy and rebuild.

usage: mutate.py SPEC.json   with SPEC = [{"file","def","old","new","claim","target"?}, ...]
Each result is appended to seeded/LOG.jsonl.
"""
import json, os, re, pathlib, signal, subprocess, sys, shutil
root = pathlib.Path(__file__).resolve().parent.parent
scratch = pathlib.Path("/tmp/mut")
base = pathlib.Path("/tmp/mut_base")  # the model as it was when the run started
specs = json.load(open(sys.argv[1]))
def sync():
    shutil.rmtree(scratch, ignore_errors=True)
    subprocess.run(["cp", "-a", str(base), str(scratch)], check=True)
def build(targets):
    """build the scratch copy; with FAST=1 in the environment stop at the first module that fails"""
    cmd = ["lake", "build"] + targets
    if not os.environ.get("FAST"):
        return subprocess.run(cmd, cwd=scratch, capture_output=True, text=True)
    p = subprocess.Popen(cmd, cwd=scratch, stdout=subprocess.PIPE, stderr=subprocess.STDOUT, text=True, start_new_session=True)
    out, failed = "", False
    for line in p.stdout:
        out += line
        if failed and "error: Lean exited" in line:
            os.killpg(p.pid, signal.SIGKILL)
            break
        failed = failed or line.startswith("error: Verif/")
    p.wait()
    return subprocess.CompletedProcess(cmd, 1 if failed else p.returncode, out, "")
shutil.rmtree(base, ignore_errors=True)
subprocess.run(["cp", "-a", str(root / "lean"), str(base)], check=True)
for t in {m.get("target", "Verif") for m in specs}:
    if subprocess.run(["lake", "build"] + t.split(), cwd=base, capture_output=True).returncode != 0:
        sys.exit("unmodified model does not build: " + t)
for m in specs:
    sync()
    f = scratch / m["file"]
    s = f.read_text()
    if s.count(m["old"]) < 1:
        print("NOT FOUND", m["file"], m["old"]); continue
    if s.count(m["old"]) > 1 and not m.get("all"):
        print("AMBIGUOUS", m["file"], m["old"]); continue
    f.write_text(s.replace(m["old"], m["new"]))
    r = build(m.get("target", "Verif").split())
    failed = []
    broken_model = False
    for e in re.finditer(r"error: (Verif/\S+\.lean):(\d+):", r.stdout + r.stderr):
        p, ln = e.group(1), int(e.group(2))
        if "/Model/" in p: broken_model = True
        lines = (scratch / p).read_text().splitlines()
        for i in range(ln - 1, -1, -1):
            mm = re.match(r"(?:private |protected )?(theorem|def|example|instance|structure)\s*(\S*)", lines[i])
            if mm:
                n = (mm.group(2) if mm.group(1) != "example" else "example") + " (" + p + ")"
                if n not in failed: failed.append(n)
                break
    ok = r.returncode != 0 and not broken_model
    status = "MODEL DOES NOT COMPILE" if broken_model else ("killed" if ok else "SURVIVED")
    print(status, m["def"], "|", m["old"].strip()[:50], "->", m["new"].strip()[:50], "|", failed[:4], flush=True)
    if not broken_model:
        entry = {"definition": m["def"], "file": m["file"], "edit": m["old"] + "  ==>  " + m["new"],
                 "claim_broken": m["claim"], "theorems_failed": failed, "theorems_tightened": m.get("tightened", [])}
        if not ok: entry["note"] = m.get("note", "survived")
        if ok or m.get("log_survivor"):
            with open(root / "seeded" / "LOG.jsonl", "a") as g: g.write(json.dumps(entry) + "\n")
